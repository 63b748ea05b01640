import Verif.Model.Tree
import Verif.Lemmas.Dict
import Verif.Lemmas.Str
import Mathlib.Tactic.ByContra
import Mathlib.Data.List.Perm.Subperm
import Mathlib.Data.List.Nodup
/-! # Trees of paths -/
namespace Cdtb
set_option autoImplicit false
open Py

/-- The subtree at a path -/
def Tree.at? : Tree → List Str → Option Tree
  | t, [] => some t
  | .leaf, _ :: _ => none
  | .node d, n :: p => match Dict.get? d n with
    | some c => c.at? p
    | none => none

/-- Paths of the leafs -/
def Tree.Has (t : Tree) (p : List Str) : Prop := t.at? p = some .leaf

theorem Tree.has_leaf (p : List Str) : Tree.leaf.Has p ↔ p = [] := by
  cases p <;> simp [Has, at?]
theorem Tree.has_node_nil (d : List (Str × Tree)) : ¬ (Tree.node d).Has [] := by simp [Has, at?]
theorem Tree.has_node_cons (d : Dict Str Tree) (n : Str) (p : List Str) :
    (Tree.node d).Has (n :: p) ↔ ∃ c, d.get? n = some c ∧ c.Has p := by
  unfold Has
  rw [at?]
  rcases d.get? n with _ | c <;> simp

/-- No two items with the same name, and no empty directory. -/
inductive Tree.Good : Tree → Prop
  | leaf : Good .leaf
  | node (d : Dict Str Tree) : d.WF → d ≠ [] → (∀ n c, d.get? n = some c → Good c) → Good (.node d)

/-- A root: it can be empty -/
structure GoodRoot (d : Dict Str Tree) : Prop where
  wf : d.WF
  good : ∀ n c, d.get? n = some c → c.Good

theorem Tree.Good.root {d : Dict Str Tree} (h : Tree.Good (.node d)) : GoodRoot d := by
  cases h with
  | node _ h1 h2 h3 => exact ⟨h1, h3⟩

theorem Tree.Good.exists_has {t : Tree} (h : t.Good) : ∃ p, t.Has p := by
  induction h with
  | leaf => exact ⟨[], rfl⟩
  | node d hw hne _ ih =>
    cases d with
    | nil => exact absurd rfl hne
    | cons x r =>
      obtain ⟨n, c⟩ := x
      have hg : Dict.get? ((n, c) :: r) n = some c := by simp [Dict.get?]
      obtain ⟨p, hp⟩ := ih n c hg
      exact ⟨n :: p, (has_node_cons _ _ _).2 ⟨c, hg, hp⟩⟩

theorem has_set (d : Dict Str Tree) (n : Str) (t : Tree) (m : Str) (p : List Str) :
    (Tree.node (d.set n t)).Has (m :: p) ↔ if m = n then t.Has p else (Tree.node d).Has (m :: p) := by
  rw [Tree.has_node_cons, Dict.get?_set]
  by_cases h : m = n
  · rw [if_pos h, if_pos h]; simp
  · rw [if_neg h, if_neg h, Tree.has_node_cons]

theorem GoodRoot.set {d : Dict Str Tree} (h : GoodRoot d) (n : Str) {t : Tree} (ht : t.Good) : GoodRoot (d.set n t) where
  wf := h.wf.set n t
  good := by
    intro m c hc
    rw [Dict.get?_set] at hc
    by_cases hm : m = n
    · rw [if_pos hm] at hc; cases hc; exact ht
    · rw [if_neg hm] at hc; exact h.good m c hc

theorem set_ne_nil (d : Dict Str Tree) (n : Str) (t : Tree) : d.set n t ≠ [] := by
  intro h
  have := Dict.get?_set_self d n t
  rw [h] at this
  cases this

theorem GoodRoot.nil : GoodRoot [] := ⟨.nil, by intro n c h; cases h⟩
theorem not_has_nil (p : List Str) : ¬ (Tree.node []).Has p := by
  cases p with
  | nil => exact Tree.has_node_nil _
  | cons n p => rw [Tree.has_node_cons]; rintro ⟨c, h, _⟩; cases h

/-- Adding a path that does not conflict with the other ones -/
theorem treeInsert_spec (ps : List Str) (hps : ps ≠ []) (d : Dict Str Tree) (hd : GoodRoot d)
    (hc : ∀ q, (Tree.node d).Has q → (q <+: ps ∨ ps <+: q) → q = ps) :
    ∃ d', treeInsert d ps = .ok d' ∧ GoodRoot d' ∧ d' ≠ [] ∧ ∀ q, (Tree.node d').Has q ↔ q = ps ∨ (Tree.node d).Has q := by
  induction ps generalizing d with
  | nil => exact absurd rfl hps
  | cons n ps ih =>
    cases ps with
    | nil =>
      refine ⟨d.set n .leaf, rfl, hd.set n .leaf, set_ne_nil _ _ _, ?_⟩
      intro q
      cases q with
      | nil => simp [Tree.has_node_nil]
      | cons m q =>
        rw [has_set]
        by_cases hm : m = n
        · subst hm
          rw [if_pos rfl, Tree.has_leaf]
          constructor
          · rintro rfl; exact Or.inl rfl
          · rintro (h | h)
            · simpa using h
            · have := hc _ h (Or.inr ⟨q, rfl⟩)
              simpa using this
        · rw [if_neg hm]
          constructor
          · exact Or.inr
          · rintro (h | h)
            · simp at h; exact absurd h.1 hm
            · exact h
    | cons n' ps =>
      have key : ∀ sub : Dict Str Tree, GoodRoot sub → (∀ q, (Tree.node sub).Has q → (Tree.node d).Has (n :: q)) →
          (∀ q, (Tree.node d).Has (n :: q) → (Tree.node sub).Has q) →
          treeInsert d (n :: n' :: ps) = (do let sub' ← treeInsert sub (n' :: ps); pure (d.set n (.node sub'))) →
          ∃ d', treeInsert d (n :: n' :: ps) = .ok d' ∧ GoodRoot d' ∧ d' ≠ [] ∧
            ∀ q, (Tree.node d').Has q ↔ q = n :: n' :: ps ∨ (Tree.node d).Has q := by
        intro sub hsub h1 h2 he
        obtain ⟨sub', e, g, hne, hq⟩ := ih (by simp) sub hsub (by
          intro q hq hpre
          have := hc (n :: q) (h1 q hq) (by
            rcases hpre with h | h
            · exact Or.inl (List.cons_prefix_cons.2 ⟨rfl, h⟩)
            · exact Or.inr (List.cons_prefix_cons.2 ⟨rfl, h⟩))
          simpa using this)
        refine ⟨d.set n (.node sub'), by rw [he, e]; rfl, hd.set n (.node _ g.wf hne g.good), set_ne_nil _ _ _, ?_⟩
        intro q
        cases q with
        | nil => simp [Tree.has_node_nil]
        | cons m q =>
          rw [has_set]
          by_cases hm : m = n
          · subst hm
            rw [if_pos rfl, hq]
            constructor
            · rintro (rfl | h)
              · exact Or.inl rfl
              · exact Or.inr (h1 q h)
            · rintro (h | h)
              · exact Or.inl (by simpa using h)
              · exact Or.inr (h2 q h)
          · rw [if_neg hm]
            constructor
            · exact Or.inr
            · rintro (h | h)
              · simp at h; exact absurd h.1 hm
              · exact h
      rcases hg : d.get? n with _ | c
      · refine key [] .nil (fun q h => absurd h (not_has_nil q)) ?_ (by rw [treeInsert, hg])
        intro q h
        obtain ⟨c, hc, _⟩ := (Tree.has_node_cons _ _ _).1 h
        rw [hg] at hc; cases hc
      · cases c with
        | leaf =>
          exfalso
          have := hc [n] ((Tree.has_node_cons _ _ _).2 ⟨_, hg, rfl⟩) (Or.inl ⟨n' :: ps, rfl⟩)
          simp at this
        | node sub =>
          refine key sub (hd.good n _ hg).root ?_ ?_ (by rw [treeInsert, hg])
          · intro q h
            exact (Tree.has_node_cons _ _ _).2 ⟨_, hg, h⟩
          · intro q h
            obtain ⟨c, hc, h⟩ := (Tree.has_node_cons _ _ _).1 h
            rw [hg] at hc; cases hc; exact h

theorem pathsToTree_go (paths : List Str) (d : Dict Str Tree) (hd : GoodRoot d)
    (hc : ∀ a b, (a ∈ paths.map (splitChar '/') ∨ (Tree.node d).Has a) → (b ∈ paths.map (splitChar '/') ∨ (Tree.node d).Has b) →
      a <+: b → a = b) :
    ∃ d', paths.foldlM (fun d p => treeInsert d (splitChar '/' p)) d = .ok d' ∧ GoodRoot d' ∧
      ∀ q, (Tree.node d').Has q ↔ q ∈ paths.map (splitChar '/') ∨ (Tree.node d).Has q := by
  induction paths generalizing d with
  | nil => exact ⟨d, rfl, hd, by simp⟩
  | cons p paths ih =>
    obtain ⟨d1, e, g, _, hq⟩ := treeInsert_spec (splitChar '/' p) (splitChar_ne_nil _ _) d hd (by
      intro q hq hpre
      rcases hpre with h | h
      · exact hc _ _ (Or.inr hq) (Or.inl (by simp)) h
      · exact (hc _ _ (Or.inl (by simp)) (Or.inr hq) h).symm)
    have hmem : ∀ a, (a ∈ paths.map (splitChar '/') ∨ (Tree.node d1).Has a) ↔
        (a ∈ (p :: paths).map (splitChar '/') ∨ (Tree.node d).Has a) := by
      intro a
      rw [hq, List.map_cons, List.mem_cons]
      constructor
      · rintro (h | h | h)
        · exact Or.inl (Or.inr h)
        · exact Or.inl (Or.inl h)
        · exact Or.inr h
      · rintro ((h | h) | h)
        · exact Or.inr (Or.inl h)
        · exact Or.inl h
        · exact Or.inr (Or.inr h)
    obtain ⟨d', e', g', hq'⟩ := ih d1 g (fun a b ha hb => hc a b ((hmem a).1 ha) ((hmem b).1 hb))
    refine ⟨d', ?_, g', fun q => by rw [hq', hmem]⟩
    rw [List.foldlM_cons, e]; exact e'

theorem pathsToTree_spec (paths : List Str)
    (hc : ∀ a ∈ paths, ∀ b ∈ paths, splitChar '/' a <+: splitChar '/' b → a = b) :
    ∃ d, pathsToTree paths = .ok d ∧ GoodRoot d ∧ ∀ q, (Tree.node d).Has q ↔ q ∈ paths.map (splitChar '/') := by
  obtain ⟨d, e, g, h⟩ := pathsToTree_go paths [] .nil (by
    rintro a b (ha | ha) (hb | hb) hp
    · obtain ⟨a', ha', rfl⟩ := List.mem_map.1 ha
      obtain ⟨b', hb', rfl⟩ := List.mem_map.1 hb
      rw [hc a' ha' b' hb' hp]
    · exact absurd hb (not_has_nil _)
    · exact absurd ha (not_has_nil _)
    · exact absurd ha (not_has_nil _))
  refine ⟨d, e, g, fun q => ?_⟩
  rw [h]
  constructor
  · rintro (h | h)
    · exact h
    · exact absurd h (not_has_nil _)
  · exact Or.inl

/-! ## Equality -/

theorem get?_of_cons {d : Dict Str Tree} {n : Str} {c : Tree} (h : (n, c) ∈ d) (hw : d.WF) : d.get? n = some c :=
  Dict.get?_of_mem hw h

theorem eqItems_iff (a : List (Str × Tree)) (b : Dict Str Tree) :
    Tree.eqItems a b = true ↔ ∀ n c, (n, c) ∈ a → ∃ c', b.get? n = some c' ∧ Tree.eq c c' = true := by
  induction a with
  | nil => simp [Tree.eqItems]
  | cons x a ih =>
    obtain ⟨n, c⟩ := x
    rw [Tree.eqItems, Bool.and_eq_true, ih]
    constructor
    · rintro ⟨h1, h2⟩ m c' hm
      rcases List.mem_cons.1 hm with hm | hm
      · cases hm
        rcases hg : b.get? n with _ | c'
        · rw [hg] at h1; cases h1
        · rw [hg] at h1; exact ⟨c', rfl, h1⟩
      · exact h2 m c' hm
    · intro h
      refine ⟨?_, fun m c' hm => h m c' (List.mem_cons_of_mem _ hm)⟩
      obtain ⟨c', h1, h2⟩ := h n c (List.mem_cons_self)
      rw [h1]; exact h2

/-- Two trees are equal exactly when they have the same paths. -/
theorem tree_eq_iff {a : Tree} (ha : a.Good) : ∀ {b : Tree}, b.Good → (Tree.eq a b = true ↔ ∀ p, a.Has p ↔ b.Has p) := by
  induction ha with
  | leaf =>
    intro b hb
    cases b with
    | leaf => simp [Tree.eq]
    | node d =>
      simp only [Tree.eq, Bool.false_eq_true, false_iff]
      intro h
      exact Tree.has_node_nil d ((h []).1 rfl)
  | node d hw hne hg ih =>
    intro b hb
    cases b with
    | leaf =>
      simp only [Tree.eq, Bool.false_eq_true, false_iff]
      intro h
      exact Tree.has_node_nil d ((h []).2 rfl)
    | node e =>
      have he := hb.root
      rw [Tree.eq, Bool.and_eq_true, decide_eq_true_eq, eqItems_iff]
      constructor
      · rintro ⟨hl, hi⟩ p
        have hsub : d.keys ⊆ Dict.keys e := by
          intro n hn
          obtain ⟨⟨n', c⟩, hm, rfl⟩ := List.mem_map.1 hn
          obtain ⟨c', h1, _⟩ := hi n' c hm
          exact List.mem_map.2 ⟨_, Dict.mem_of_get? h1, rfl⟩
        have hperm : d.keys.Perm (Dict.keys e) := by
          have hle : (Dict.keys e).length ≤ d.keys.length := by simp [Dict.keys, hl]
          exact (List.Nodup.subperm hw hsub).perm_of_length_le hle
        cases p with
        | nil => simp [Tree.has_node_nil]
        | cons n p =>
          rw [Tree.has_node_cons, Tree.has_node_cons]
          constructor
          · rintro ⟨c, h1, h2⟩
            obtain ⟨c', h3, h4⟩ := hi n c (Dict.mem_of_get? h1)
            exact ⟨c', h3, (((ih n c h1) (he.good n c' h3)).1 h4 p).1 h2⟩
          · rintro ⟨c', h1, h2⟩
            have : n ∈ d.keys := hperm.mem_iff.2 (List.mem_map.2 ⟨_, Dict.mem_of_get? h1, rfl⟩)
            obtain ⟨⟨n', c⟩, hm, rfl⟩ := List.mem_map.1 this
            obtain ⟨c'', h3, h4⟩ := hi n' c hm
            have h5 := Dict.get?_of_mem hw hm
            simp only at h1
            rw [h3] at h1; cases h1
            exact ⟨c, h5, (((ih n' c h5) (he.good n' _ h3)).1 h4 p).2 h2⟩
      · intro h
        have hi : ∀ n c, d.get? n = some c → ∃ c', Dict.get? e n = some c' ∧ ∀ p, c.Has p ↔ c'.Has p := by
          intro n c hc
          obtain ⟨p, hp⟩ := (hg n c hc).exists_has
          obtain ⟨c', h1, _⟩ := (Tree.has_node_cons e n p).1 ((h (n :: p)).1 ((Tree.has_node_cons d n p).2 ⟨c, hc, hp⟩))
          refine ⟨c', h1, fun p => ?_⟩
          have := h (n :: p)
          rw [Tree.has_node_cons, Tree.has_node_cons, hc, h1] at this
          simpa using this
        have hi' : ∀ n, n ∈ Dict.keys e → n ∈ d.keys := by
          intro n hn
          obtain ⟨⟨n', c'⟩, hm, rfl⟩ := List.mem_map.1 hn
          have h1 := Dict.get?_of_mem he.wf hm
          obtain ⟨p, hp⟩ := (he.good n' c' h1).exists_has
          obtain ⟨c, h2, _⟩ := (Tree.has_node_cons d n' p).1 ((h (n' :: p)).2 ((Tree.has_node_cons e n' p).2 ⟨c', h1, hp⟩))
          exact List.mem_map.2 ⟨_, Dict.mem_of_get? h2, rfl⟩
        have hperm : d.keys.Perm (Dict.keys e) := by
          rw [List.perm_ext_iff_of_nodup hw he.wf]
          intro n
          constructor
          · intro hn
            obtain ⟨⟨n', c⟩, hm, rfl⟩ := List.mem_map.1 hn
            obtain ⟨c', h1, _⟩ := hi n' c (Dict.get?_of_mem hw hm)
            exact List.mem_map.2 ⟨_, Dict.mem_of_get? h1, rfl⟩
          · exact hi' n
        refine ⟨by simpa [Dict.keys] using hperm.length_eq, ?_⟩
        intro n c hm
        have h1 := Dict.get?_of_mem hw hm
        obtain ⟨c', h2, h3⟩ := hi n c h1
        exact ⟨c', h2, (ih n c h1 (he.good n c' h2)).2 h3⟩

/-! ## Reduction -/

/-- A path that can be returned as a whole -/
def Pick (t1 t2 ex : Tree) (r : List Str) : Prop :=
  t1.Has r ∨ ((∃ p, t1.Has (r ++ p)) ∧ (∀ p, t1.Has (r ++ p) ↔ t2.Has (r ++ p)) ∧ ∀ p, p ≠ [] → ¬ ex.Has (r ++ p))

/-- The paths returned: the topmost ones that can be. -/
def Topmost (t1 t2 ex : Tree) (r : List Str) : Prop :=
  Pick t1 t2 ex r ∧ ∀ s, s <+: r → Pick t1 t2 ex s → s = r

theorem getNone_has {ex : Tree} {n : Str} {p : List Str} (hp : p ≠ []) : (ex.getNone n).Has p ↔ ex.Has (n :: p) := by
  cases ex with
  | leaf => simp only [Tree.getNone]; rw [Tree.has_leaf, Tree.has_leaf]; simp [hp]
  | node d =>
    simp only [Tree.getNone]
    rw [Tree.has_node_cons]
    rcases Dict.get? d n with _ | c
    · simp [Tree.has_leaf, hp]
    · simp

theorem isNone_iff {ex : Tree} (h : ex.Good) : ex.isNone = true ↔ ∀ p, p ≠ [] → ¬ ex.Has p := by
  cases ex with
  | leaf =>
    simp only [Tree.isNone, true_iff]
    intro p hp h; exact hp ((Tree.has_leaf p).1 h)
  | node d =>
    simp only [Tree.isNone, Bool.false_eq_true, false_iff]
    intro h'
    obtain ⟨p, hp⟩ := h.exists_has
    refine h' p ?_ hp
    rintro rfl
    exact Tree.has_node_nil d hp

theorem getNone_good {ex : Tree} (h : ex.Good ∨ ∃ d, ex = .node d ∧ GoodRoot d) (n : Str) : (ex.getNone n).Good := by
  have key : ∀ d : Dict Str Tree, GoodRoot d → ((Tree.node d).getNone n).Good := by
    intro d hd
    simp only [Tree.getNone]
    rcases hg : Dict.get? d n with _ | c
    · exact .leaf
    · exact hd.good n c hg
  rcases h with h | ⟨d, rfl, hd⟩
  · cases ex with
    | leaf => exact .leaf
    | node d => exact key d h.root
  · exact key d hd

theorem pick_cons {d1 : Dict Str Tree} {t2 ex c1 c2 : Tree} {n : Str} {r : List Str} (h1 : d1.get? n = some c1)
    (h2 : t2.item n = .ok c2) : Pick (.node d1) t2 ex (n :: r) ↔ Pick c1 c2 (ex.getNone n) r := by
  have e1 : ∀ p, (Tree.node d1).Has (n :: p) ↔ c1.Has p := by
    intro p; rw [Tree.has_node_cons, h1]; simp
  have e2 : ∀ p, t2.Has (n :: p) ↔ c2.Has p := by
    intro p
    cases t2 with
    | leaf => cases h2
    | node d2 =>
      unfold Tree.item Dict.get at h2
      rw [Tree.has_node_cons]
      rcases hg : Dict.get? d2 n with _ | c
      · simp only [hg] at h2; cases h2
      · simp only [hg] at h2; cases h2; simp
  have e3 : ∀ p, p ≠ [] → ((ex.getNone n).Has (r ++ p) ↔ ex.Has (n :: (r ++ p))) := by
    intro p hp
    exact getNone_has (by simp [hp])
  unfold Pick
  simp only [List.cons_append, e1, e2]
  refine or_congr Iff.rfl (and_congr Iff.rfl (and_congr Iff.rfl ?_))
  constructor
  · intro h p hp h'; exact h p hp ((e3 p hp).1 h')
  · intro h p hp h'; exact h p hp ((e3 p hp).2 h')

theorem topmost_cons {d1 : Dict Str Tree} {t2 ex c1 c2 : Tree} {n : Str} {r : List Str} (h1 : d1.get? n = some c1)
    (h2 : t2.item n = .ok c2) (h0 : ¬ Pick (.node d1) t2 ex []) :
    Topmost (.node d1) t2 ex (n :: r) ↔ Topmost c1 c2 (ex.getNone n) r := by
  unfold Topmost
  rw [pick_cons h1 h2]
  refine and_congr Iff.rfl ?_
  constructor
  · intro h s hs hp
    have := h (n :: s) (List.cons_prefix_cons.2 ⟨rfl, hs⟩) ((pick_cons h1 h2).2 hp)
    simpa using this
  · intro h s hs hp
    cases s with
    | nil => exact absurd hp h0
    | cons m s =>
      obtain ⟨rfl, hs'⟩ := List.cons_prefix_cons.1 hs
      rw [h s hs' ((pick_cons h1 h2).1 hp)]

/-- The items to go through and what they give -/
theorem reduceItems_spec (parts : List Str) (t2 ex : Tree) (l : List (Str × Tree)) (hw : Dict.WF l)
    (hg : ∀ n c, (n, c) ∈ l → c.Good) (hsub : ∀ n c p, (n, c) ∈ l → c.Has p → t2.Has (n :: p))
    (ih : ∀ n c1 c2, (n, c1) ∈ l → t2.item n = .ok c2 → ∃ rs : List (List Str), rs.Nodup ∧
      reduceTrees (parts ++ [n]) c1 c2 (ex.getNone n) = .ok (rs.map (fun r => join ['/'] (parts ++ [n] ++ r))) ∧
      ∀ r, r ∈ rs ↔ Topmost c1 c2 (ex.getNone n) r) :
    ∃ rs : List (List Str), rs.Nodup ∧ reduceItems parts l t2 ex = .ok (rs.map (fun r => join ['/'] (parts ++ r))) ∧
      ∀ r, r ∈ rs ↔ ∃ n c1 c2 r', r = n :: r' ∧ (n, c1) ∈ l ∧ t2.item n = .ok c2 ∧ Topmost c1 c2 (ex.getNone n) r' := by
  induction l with
  | nil => exact ⟨[], .nil, rfl, by simp⟩
  | cons x l ihl =>
    obtain ⟨n, c1⟩ := x
    have hw' : Dict.WF l := by unfold Dict.WF at hw ⊢; rw [Dict.keys_cons] at hw; exact (List.nodup_cons.1 hw).2
    have hn : ∀ c, (n, c) ∉ l := by
      intro c hc
      unfold Dict.WF at hw; rw [Dict.keys_cons] at hw
      exact (List.nodup_cons.1 hw).1 (List.mem_map.2 ⟨_, hc, rfl⟩)
    obtain ⟨rs, hn1, e1, h1⟩ := ihl hw' (fun m c h => hg m c (List.mem_cons_of_mem _ h))
      (fun m c p h => hsub m c p (List.mem_cons_of_mem _ h)) (fun m c1 c2 h => ih m c1 c2 (List.mem_cons_of_mem _ h))
    obtain ⟨p, hp⟩ := (hg n c1 (List.mem_cons_self)).exists_has
    have hp2 := hsub n c1 p (List.mem_cons_self) hp
    obtain ⟨c2, hc2⟩ : ∃ c2, t2.item n = .ok c2 := by
      cases t2 with
      | leaf => simp [Tree.Has, Tree.at?] at hp2
      | node d2 =>
        obtain ⟨c2, h, _⟩ := (Tree.has_node_cons d2 n p).1 hp2
        exact ⟨c2, by unfold Tree.item Dict.get; simp only [h]⟩
    obtain ⟨rs0, hn0, e0, h0⟩ := ih n c1 c2 (List.mem_cons_self) hc2
    refine ⟨rs0.map (n :: ·) ++ rs, ?_, ?_, ?_⟩
    · rw [List.nodup_append]
      refine ⟨List.Nodup.map (by intro a b hab; simpa using hab) hn0, hn1, ?_⟩
      rintro a ha b hb rfl
      obtain ⟨r', _, rfl⟩ := List.mem_map.1 ha
      obtain ⟨m, c, _, _, e, hm, _⟩ := (h1 _).1 hb
      cases e
      exact hn c hm
    · rw [reduceItems, hc2]
      simp only [Bind.bind, Except.bind, e0, e1]
      simp [Pure.pure, Except.pure, List.append_assoc]
    · intro r
      rw [List.mem_append, h1]
      constructor
      · rintro (h | ⟨m, c1', c2', r', rfl, hm, h3, h4⟩)
        · obtain ⟨r', hr', rfl⟩ := List.mem_map.1 h
          exact ⟨n, c1, c2, r', rfl, List.mem_cons_self, hc2, (h0 r').1 hr'⟩
        · exact ⟨m, c1', c2', r', rfl, List.mem_cons_of_mem _ hm, h3, h4⟩
      · rintro ⟨m, c1', c2', r', rfl, hm, h3, h4⟩
        rcases List.mem_cons.1 hm with hm | hm
        · cases hm
          rw [hc2] at h3; cases h3
          exact Or.inl (List.mem_map.2 ⟨r', (h0 r').2 h4, rfl⟩)
        · exact Or.inr ⟨m, c1', c2', r', rfl, hm, h3, h4⟩

theorem topmost_items {d1 : Dict Str Tree} (hd : d1.WF) {t2 ex : Tree}
    (hsub : ∀ p, (Tree.node d1).Has p → t2.Has p)
    (h0 : ¬ Pick (.node d1) t2 ex []) (r : List Str) :
    (∃ n c1 c2 r', r = n :: r' ∧ (n, c1) ∈ d1 ∧ t2.item n = .ok c2 ∧ Topmost c1 c2 (ex.getNone n) r') ↔
      Topmost (.node d1) t2 ex r := by
  constructor
  · rintro ⟨n, c1, c2, r', rfl, hm, h2, h⟩
    exact (topmost_cons (Dict.get?_of_mem hd hm) h2 h0).2 h
  · intro h
    cases r with
    | nil => exact absurd h.1 h0
    | cons n r' =>
      obtain ⟨p, hp⟩ : ∃ p, (Tree.node d1).Has (n :: p) := by
        rcases h.1 with h | ⟨⟨p, h⟩, _⟩
        · exact ⟨_, h⟩
        · exact ⟨_, h⟩
      obtain ⟨c1, h1, _⟩ := (Tree.has_node_cons d1 n p).1 hp
      have hp2 := hsub _ hp
      obtain ⟨c2, hc2⟩ : ∃ c2, t2.item n = .ok c2 := by
        cases t2 with
        | leaf => simp [Tree.Has, Tree.at?] at hp2
        | node d2 =>
          obtain ⟨c2, h, _⟩ := (Tree.has_node_cons d2 n p).1 hp2
          exact ⟨c2, by unfold Tree.item Dict.get; simp only [h]⟩
      exact ⟨n, c1, c2, r', rfl, Dict.mem_of_get? h1, hc2, (topmost_cons h1 hc2 h0).1 h⟩

theorem item_good {t2 c2 : Tree} (h : t2.Good ∨ ∃ d, t2 = .node d ∧ GoodRoot d) {n : Str} (hi : t2.item n = .ok c2) : c2.Good := by
  have key : ∀ d : Dict Str Tree, GoodRoot d → (Tree.node d).item n = .ok c2 → c2.Good := by
    intro d hd hi
    unfold Tree.item Dict.get at hi
    rcases hg : Dict.get? d n with _ | c
    · simp only [hg] at hi; cases hi
    · simp only [hg] at hi; cases hi; exact hd.good n _ hg
  rcases h with h | ⟨d, rfl, hd⟩
  · cases t2 with
    | leaf => cases hi
    | node d => exact key d h.root hi
  · exact key d hd hi

theorem item_has {t2 c2 : Tree} {n : Str} (hi : t2.item n = .ok c2) (p : List Str) : t2.Has (n :: p) ↔ c2.Has p := by
  cases t2 with
  | leaf => cases hi
  | node d =>
    unfold Tree.item Dict.get at hi
    rw [Tree.has_node_cons]
    rcases hg : Dict.get? d n with _ | c
    · simp only [hg] at hi; cases hi
    · simp only [hg] at hi; cases hi; simp

theorem reduceTrees_spec {t1 : Tree} (h1 : t1.Good) : ∀ (parts : List Str) (t2 ex : Tree), t2.Good → ex.Good →
    (∀ p, t1.Has p → t2.Has p) → ∃ rs : List (List Str), rs.Nodup ∧
      reduceTrees parts t1 t2 ex = .ok (rs.map (fun r => join ['/'] (parts ++ r))) ∧
      ∀ r, r ∈ rs ↔ Topmost t1 t2 ex r := by
  induction h1 with
  | leaf =>
    intro parts t2 ex _ _ _
    refine ⟨[[]], by simp, by rw [reduceTrees]; simp, ?_⟩
    intro r
    rw [List.mem_singleton]
    have h0 : Pick .leaf t2 ex [] := Or.inl rfl
    constructor
    · rintro rfl
      exact ⟨h0, fun s hs _ => List.prefix_nil.1 hs⟩
    · intro h
      exact (h.2 [] (List.nil_prefix) h0).symm
  | node d hw hne hg ih =>
    intro parts t2 ex h2 hex hsub
    have hgood : (Tree.node d).Good := .node d hw hne hg
    rw [reduceTrees]
    have hpick : (Tree.eq (.node d) t2 && ex.isNone) = true ↔ Pick (.node d) t2 ex [] := by
      rw [Bool.and_eq_true, tree_eq_iff hgood h2, isNone_iff hex]
      unfold Pick
      simp only [List.nil_append]
      constructor
      · rintro ⟨a, b⟩; exact Or.inr ⟨hgood.exists_has, a, b⟩
      · rintro (a | ⟨_, a, b⟩)
        · exact absurd a (Tree.has_node_nil d)
        · exact ⟨a, b⟩
    by_cases hp : Pick (.node d) t2 ex []
    · rw [if_pos (hpick.2 hp)]
      refine ⟨[[]], by simp, by simp, ?_⟩
      intro r
      rw [List.mem_singleton]
      constructor
      · rintro rfl
        exact ⟨hp, fun s hs _ => List.prefix_nil.1 hs⟩
      · intro h
        exact (h.2 [] (List.nil_prefix) hp).symm
    · rw [if_neg (fun h => hp (hpick.1 h))]
      obtain ⟨rs, hn, e, hr⟩ := reduceItems_spec parts t2 ex d hw (fun n c hm => hg n c (Dict.get?_of_mem hw hm))
        (fun n c p hm hc => hsub _ ((Tree.has_node_cons d n p).2 ⟨c, Dict.get?_of_mem hw hm, hc⟩))
        (fun n c1 c2 hm hi => by
          have hc1 := Dict.get?_of_mem hw hm
          exact ih n c1 hc1 (parts ++ [n]) c2 (ex.getNone n) (item_good (Or.inl h2) hi) (getNone_good (Or.inl hex) n)
            (fun p hp => (item_has hi p).1 (hsub _ ((Tree.has_node_cons d n p).2 ⟨c1, hc1, hp⟩))))
      exact ⟨rs, hn, e, fun r => by rw [hr, topmost_items hw hsub hp]⟩

theorem reduceRoot_spec {d1 d2 ex : Dict Str Tree} (h1 : GoodRoot d1) (h2 : GoodRoot d2) (hex : GoodRoot ex)
    (hsub : ∀ p, (Tree.node d1).Has p → (Tree.node d2).Has p) :
    ∃ rs : List (List Str), rs.Nodup ∧ reduceTrees [] (.node d1) (.node d2) (.node ex) = .ok (rs.map (join ['/'])) ∧
      ∀ r, r ∈ rs ↔ ∃ n c1 c2 r', r = n :: r' ∧ (n, c1) ∈ d1 ∧ (Tree.node d2).item n = .ok c2 ∧
        Topmost c1 c2 ((Tree.node ex).getNone n) r' := by
  rw [reduceTrees]
  have : ¬ ((Tree.eq (.node d1) (.node d2) && (Tree.node ex).isNone) = true) := by
    simp [Tree.isNone]
  rw [if_neg this]
  obtain ⟨rs, hn, e, hr⟩ := reduceItems_spec [] (.node d2) (.node ex) d1 h1.wf
    (fun n c hm => h1.good n c (Dict.get?_of_mem h1.wf hm))
    (fun n c p hm hc => hsub _ ((Tree.has_node_cons d1 n p).2 ⟨c, Dict.get?_of_mem h1.wf hm, hc⟩))
    (fun n c1 c2 hm hi => by
      have hc1 := Dict.get?_of_mem h1.wf hm
      exact reduceTrees_spec (h1.good n c1 hc1) ([] ++ [n]) c2 _ (item_good (Or.inr ⟨d2, rfl, h2⟩) hi)
        (getNone_good (Or.inr ⟨ex, rfl, hex⟩) n)
        (fun p hp => (item_has hi p).1 (hsub _ ((Tree.has_node_cons d1 n p).2 ⟨c1, hc1, hp⟩))))
  exact ⟨rs, hn, by rw [e]; simp, hr⟩

end Cdtb
