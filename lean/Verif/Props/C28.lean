import Verif.Model.Clean
import Verif.Lemmas.Dict
import Verif.Lemmas.Str
import Mathlib.Data.List.Infix
import Mathlib.Tactic.ByContra
/-!
# C28 Cleaning the output removes exactly the extra files
-/
namespace Cdtb
set_option autoImplicit false
open Py

/-- A directory tree: one object per path, each one inside a directory. -/
structure DirTree.WellFormed (t : DirTree) : Prop where
  wf : Dict.WF t
  parent : ∀ p n, p ≠ [] → t.get? p = some n → t.get? p.dropLast = some .dir

/-- Nothing is directly inside -/
def NoChild (t : DirTree) (d : List Str) : Prop := ∀ p, p ≠ [] → p.dropLast = d → t.get? p = none

/-- `p` is inside a kept directory -/
def InsideKept (kept : List Str) (p : List Str) : Prop := ∃ q, q ≠ [] ∧ q <+: p ∧ q ≠ p ∧ join ['/'] q ∈ kept

theorem scandir_isEmpty {t : DirTree} (hw : Dict.WF t) (d : List Str) : (scandir t d).isEmpty = true ↔ NoChild t d := by
  unfold scandir NoChild
  rw [List.isEmpty_iff, List.filter_eq_nil_iff]
  constructor
  · intro h p hp hd
    rw [Dict.get?_eq_none]
    intro hm
    obtain ⟨e, he, rfl⟩ := List.mem_map.1 hm
    exact h e he (decide_eq_true ⟨hp, hd⟩)
  · intro h e he hd
    rw [decide_eq_true_eq] at hd
    have := h e.1 hd.1 hd.2
    rw [Dict.get?_of_mem hw (v := e.2) he] at this
    cases this

theorem mem_yielded {t : DirTree} (hw : Dict.WF t) (base p : List Str) :
    p ∈ yielded (scandir t base) ↔ p ≠ [] ∧ p.dropLast = base ∧ ∃ n, n ≠ .dir ∧ t.get? p = some n := by
  unfold yielded scandir
  simp only [List.mem_map, List.mem_filter, decide_eq_true_eq]
  constructor
  · rintro ⟨⟨q, n⟩, ⟨⟨hm, h1, h2⟩, h3⟩, rfl⟩
    exact ⟨h1, h2, n, h3, Dict.get?_of_mem hw hm⟩
  · rintro ⟨h1, h2, n, h3, h4⟩
    exact ⟨(p, n), ⟨⟨Dict.mem_of_get? h4, h1, h2⟩, h3⟩, rfl⟩

theorem mem_subdirs {t : DirTree} (hw : Dict.WF t) (skip : List Str) (base p : List Str) :
    p ∈ subdirs skip (scandir t base) ↔ p ≠ [] ∧ p.dropLast = base ∧ t.get? p = some .dir ∧ join ['/'] p ∉ skip := by
  unfold subdirs scandir
  simp only [List.mem_map, List.mem_filter, decide_eq_true_eq, Bool.and_eq_true, Bool.not_eq_true', List.contains_eq_mem,
    decide_eq_false_iff_not]
  constructor
  · rintro ⟨⟨q, n⟩, ⟨⟨hm, h1, h2⟩, h3, h4⟩, rfl⟩
    simp only at h3; subst h3
    exact ⟨h1, h2, Dict.get?_of_mem hw hm, h4⟩
  · rintro ⟨h1, h2, h3, h4⟩
    exact ⟨(p, .dir), ⟨⟨Dict.mem_of_get? h3, h1, h2⟩, rfl, h4⟩, rfl⟩

theorem subdirs_nodup {t : DirTree} (hw : Dict.WF t) (skip : List Str) (base : List Str) :
    (subdirs skip (scandir t base)).Nodup := by
  unfold subdirs scandir
  refine List.Nodup.sublist ?_ hw
  exact (List.filter_sublist.trans List.filter_sublist).map _

/-! ## The walk ends -/

/-- Objects at or below a path -/
def below (t : DirTree) (b : List Str) : Nat := t.countP (fun e => b.isPrefixOf e.1)

theorem countP_le_one {α : Type} (l : List α) (hn : l.Nodup) (P : α → Bool)
    (h : ∀ x ∈ l, ∀ y ∈ l, P x = true → P y = true → x = y) : l.countP P ≤ 1 := by
  induction l with
  | nil => simp
  | cons a l ih =>
    have ih := ih (List.nodup_cons.1 hn).2 (fun x hx y hy => h x (List.mem_cons_of_mem _ hx) y (List.mem_cons_of_mem _ hy))
    rw [List.countP_cons]
    by_cases ha : P a = true
    · rw [if_pos ha]
      have : l.countP P = 0 := by
        rw [List.countP_eq_zero]
        intro x hx hp
        have := h a (List.mem_cons_self) x (List.mem_cons_of_mem _ hx) ha hp
        exact (List.nodup_cons.1 hn).1 (this ▸ hx)
      omega
    · rw [if_neg ha]; omega

theorem sum_below (base : List Str) (cs : List (List Str)) (hn : cs.Nodup) (hc : ∀ c ∈ cs, c ≠ [] ∧ c.dropLast = base)
    (l : DirTree) :
    (cs.map (below l)).sum ≤ l.countP (fun e => base.isPrefixOf e.1 && decide (e.1 ≠ base)) := by
  induction l with
  | nil =>
    have : ∀ cs : List (List Str), (cs.map (below [])).sum = 0 := by
      intro cs
      induction cs with
      | nil => rfl
      | cons c cs ih => rw [List.map_cons, List.sum_cons, ih]; rfl
    rw [this]; simp
  | cons e l ih =>
    have hstep : ∀ cs : List (List Str), (cs.map (below (e :: l))).sum =
        (cs.map (below l)).sum + cs.countP (fun c => c.isPrefixOf e.1) := by
      intro cs
      induction cs with
      | nil => rfl
      | cons c cs ih =>
        rw [List.map_cons, List.sum_cons, ih, List.map_cons, List.sum_cons, List.countP_cons]
        have : below (e :: l) c = below l c + if c.isPrefixOf e.1 = true then 1 else 0 := by
          unfold below; rw [List.countP_cons]
        rw [this]; omega
    rw [hstep, List.countP_cons]
    have hform : ∀ c ∈ cs, ∃ n, c = base ++ [n] := by
      intro c hc'
      obtain ⟨h1, h2⟩ := hc c hc'
      exact ⟨c.getLast h1, by rw [← h2, List.dropLast_concat_getLast]⟩
    have hone : cs.countP (fun c => c.isPrefixOf e.1) ≤
        if (base.isPrefixOf e.1 && decide (e.1 ≠ base)) = true then 1 else 0 := by
      by_cases hb : (base.isPrefixOf e.1 && decide (e.1 ≠ base)) = true
      · rw [if_pos hb]
        refine countP_le_one cs hn _ ?_
        intro x hx y hy h1 h2
        obtain ⟨n, rfl⟩ := hform x hx
        obtain ⟨m, rfl⟩ := hform y hy
        rw [List.isPrefixOf_iff_prefix] at h1 h2
        have := List.prefix_of_prefix_length_le h1 h2 (by simp)
        exact this.eq_of_length (by simp)
      · rw [if_neg hb]
        have : cs.countP (fun c => c.isPrefixOf e.1) = 0 := by
          rw [List.countP_eq_zero]
          intro c hc' h1
          obtain ⟨n, rfl⟩ := hform c hc'
          rw [List.isPrefixOf_iff_prefix] at h1
          apply hb
          rw [Bool.and_eq_true, List.isPrefixOf_iff_prefix, decide_eq_true_eq]
          refine ⟨(List.prefix_append _ _).trans h1, ?_⟩
          intro he
          rw [he] at h1
          have := h1.length_le
          simp at this; omega
        omega
    omega

theorem below_pos {t : DirTree} {b : List Str} {n : FNode} (h : t.get? b = some n) : 1 ≤ below t b := by
  unfold below
  rw [Nat.one_le_iff_ne_zero, ne_eq, List.countP_eq_zero]
  intro h'
  exact h' _ (Dict.mem_of_get? h) (by rw [List.isPrefixOf_iff_prefix])

theorem below_split (t : DirTree) (base : List Str) (h : t.contains base = true) :
    t.countP (fun e => base.isPrefixOf e.1 && decide (e.1 ≠ base)) + 1 ≤ below t base := by
  unfold below
  have hk := Dict.contains_iff.1 h
  clear h
  induction t with
  | nil => simp [Dict.keys] at hk
  | cons e l ih =>
    rw [List.countP_cons, List.countP_cons]
    by_cases he : e.1 = base
    · have h1 : base.isPrefixOf e.1 = true := by rw [List.isPrefixOf_iff_prefix, he]
      have h2 : ¬ ((base.isPrefixOf e.1 && decide (e.1 ≠ base)) = true) := by simp [he]
      rw [if_pos h1, if_neg h2]
      have : ∀ l : DirTree, l.countP (fun e => base.isPrefixOf e.1 && decide (e.1 ≠ base)) ≤ l.countP (fun e => base.isPrefixOf e.1) := by
        intro l
        apply List.countP_mono_left
        intro x _ hx
        exact (Bool.and_eq_true _ _ ▸ hx).1
      have := this l
      omega
    · have hk' : base ∈ Dict.keys l := by
        rw [Dict.keys_cons, List.mem_cons] at hk
        rcases hk with h | h
        · exact absurd h.symm he
        · exact h
      have := ih hk'
      by_cases h1 : base.isPrefixOf e.1 = true
      · rw [if_pos h1, if_pos (by rw [h1]; simp [he])]; omega
      · rw [if_neg h1, if_neg (by simp [h1])]; omega

/-! ## What the walk yields -/

/-- `p` is a file or symlink below `b`, with no skipped directory in between. -/
def Reach (t : DirTree) (skip : List Str) (b p : List Str) : Prop :=
  b <+: p ∧ p ≠ b ∧ (∃ n, n ≠ .dir ∧ t.get? p = some n) ∧
    ∀ q, b <+: q → q ≠ b → q <+: p → q ≠ p → join ['/'] q ∉ skip

theorem WellFormed.prefix_dir {t : DirTree} (ht : t.WellFormed) (k : Nat) : ∀ (p q : List Str) (n : FNode), p.length ≤ k →
    t.get? p = some n → q <+: p → q ≠ p → t.get? q = some .dir := by
  induction k with
  | zero =>
    intro p q n hk _ hq hne
    have : p = [] := List.length_eq_zero_iff.1 (by omega)
    subst this
    exact absurd (List.prefix_nil.1 hq) hne
  | succ k ih =>
    intro p q n hk hp hq hne
    have hp0 : p ≠ [] := by rintro rfl; exact hne (List.prefix_nil.1 hq)
    have hpar := ht.parent p n hp0 hp
    have hq' : q <+: p.dropLast := by
      have hl : q.length < p.length := by
        rcases Nat.lt_or_ge q.length p.length with h | h
        · exact h
        · exact absurd (hq.eq_of_length_le h) hne
      refine List.prefix_of_prefix_length_le hq (List.dropLast_prefix p) ?_
      rw [List.length_dropLast]; omega
    by_cases he : q = p.dropLast
    · rw [he]; exact hpar
    · exact ih p.dropLast q .dir (by rw [List.length_dropLast]; omega) hpar hq' he

theorem reach_step {t : DirTree} (ht : t.WellFormed) (skip : List Str) (base p : List Str) :
    Reach t skip base p ↔ p ∈ yielded (scandir t base) ∨ ∃ c ∈ subdirs skip (scandir t base), Reach t skip c p := by
  rw [mem_yielded ht.wf]
  simp only [mem_subdirs ht.wf]
  constructor
  · rintro ⟨h1, h2, ⟨n, hn, hg⟩, h4⟩
    obtain ⟨r, rfl⟩ := h1
    match r, h2, hg, h4 with
    | [], h2, _, _ => exact absurd (by simp) h2
    | [x], _, hg, _ => exact Or.inl ⟨by simp, by simp, n, hn, hg⟩
    | x :: y :: r, _, hg, h4 =>
      right
      have hpre : (base ++ [x]) <+: (base ++ x :: y :: r) := ⟨y :: r, by simp⟩
      have hne : base ++ [x] ≠ base ++ x :: y :: r := by
        intro h; have := List.append_cancel_left h; simp at this
      refine ⟨base ++ [x], ⟨by simp, by simp, WellFormed.prefix_dir ht _ _ _ n (Nat.le_refl _) hg hpre hne,
        h4 _ (List.prefix_append _ _) (by simp) hpre hne⟩, hpre, fun h => hne h.symm, ⟨n, hn, hg⟩, ?_⟩
      intro q hq1 hq2 hq3 hq4
      refine h4 q ((List.prefix_append _ _).trans hq1) ?_ hq3 hq4
      rintro rfl
      have := hq1.length_le
      simp at this; omega
  · rintro (⟨h1, h2, n, hn, hg⟩ | ⟨c, ⟨h1, h2, h3, h4⟩, h5, h6, h7, h8⟩)
    · refine ⟨h2 ▸ List.dropLast_prefix p, ?_, ⟨n, hn, hg⟩, ?_⟩
      · intro h
        have := congrArg List.length h2
        rw [h, List.length_dropLast] at this
        have : base.length ≠ 0 := by
          intro h0
          apply h1; rw [h]; exact List.length_eq_zero_iff.1 h0
        omega
      · intro q hq1 hq2 hq3 hq4
        exfalso
        have e : p = base ++ [p.getLast h1] := by rw [← h2, List.dropLast_concat_getLast]
        have hl : q.length < p.length := by
          rcases Nat.lt_or_ge q.length p.length with h | h
          · exact h
          · exact absurd (hq3.eq_of_length_le h) hq4
        have hl2 : base.length < q.length := by
          rcases Nat.lt_or_ge base.length q.length with h | h
          · exact h
          · exact absurd (hq1.eq_of_length_le h).symm hq2
        have := congrArg List.length e
        simp at this; omega
    · have hb : base <+: c := h2 ▸ List.dropLast_prefix c
      have hbc : c = base ++ [c.getLast h1] := by rw [← h2, List.dropLast_concat_getLast]
      have hlc : c.length = base.length + 1 := by rw [hbc]; simp
      refine ⟨hb.trans h5, ?_, h7, ?_⟩
      · rintro rfl
        have := h5.length_le
        omega
      · intro q hq1 hq2 hq3 hq4
        by_cases hqc : q = c
        · rw [hqc]; exact h4
        · refine h8 q ?_ hqc hq3 hq4
          have hl2 : base.length < q.length := by
            rcases Nat.lt_or_ge base.length q.length with h | h
            · exact h
            · exact absurd (hq1.eq_of_length_le h).symm hq2
          exact List.prefix_of_prefix_length_le h5 hq3 (by omega)

theorem walkGo_spec {t : DirTree} (ht : t.WellFormed) (skip : List Str) (fuel : Nat) (stack : List (List Str))
    (hs : ∀ b ∈ stack, t.get? b = some .dir) (hf : (stack.map (below t)).sum ≤ fuel) (p : List Str) :
    p ∈ walkGo t skip fuel stack ↔ ∃ b ∈ stack, Reach t skip b p := by
  induction fuel generalizing stack with
  | zero =>
    cases stack with
    | nil => simp [walkGo]
    | cons b stack =>
      have := below_pos (hs b (List.mem_cons_self))
      rw [List.map_cons, List.sum_cons] at hf
      omega
  | succ fuel ih =>
    cases stack with
    | nil => simp [walkGo]
    | cons base stack =>
      have hbase := hs base (List.mem_cons_self)
      rw [walkGo, List.mem_append, ih]
      · simp only [List.mem_append, List.mem_reverse, List.mem_cons]
        constructor
        · rintro (h | ⟨b, hb | hb, h⟩)
          · exact ⟨base, Or.inl rfl, (reach_step ht skip base p).2 (Or.inl h)⟩
          · exact ⟨base, Or.inl rfl, (reach_step ht skip base p).2 (Or.inr ⟨b, hb, h⟩)⟩
          · exact ⟨b, Or.inr hb, h⟩
        · rintro ⟨b, rfl | hb, h⟩
          · rcases (reach_step ht skip b p).1 h with h | ⟨c, hc, h⟩
            · exact Or.inl h
            · exact Or.inr ⟨c, Or.inl hc, h⟩
          · exact Or.inr ⟨b, Or.inr hb, h⟩
      · intro b hb
        rcases List.mem_append.1 hb with hb | hb
        · exact ((mem_subdirs ht.wf skip base b).1 (List.mem_reverse.1 hb)).2.2.1
        · exact hs b (List.mem_cons_of_mem _ hb)
      · have h1 := sum_below base (subdirs skip (scandir t base)) (subdirs_nodup ht.wf skip base)
          (fun c hc => ⟨((mem_subdirs ht.wf skip base c).1 hc).1, ((mem_subdirs ht.wf skip base c).1 hc).2.1⟩) t
        have h2 := below_split t base (by unfold Dict.contains; rw [hbase]; rfl)
        rw [List.map_cons, List.sum_cons] at hf
        rw [List.map_append, List.sum_append, List.map_reverse, List.sum_reverse]
        omega

theorem mem_walkOutput {t : DirTree} (ht : t.WellFormed) (skip : List Str) (p : List Str) :
    p ∈ walkOutput t skip ↔ (∃ n, n ≠ .dir ∧ t.get? p = some n) ∧ p ≠ [] ∧ ¬ InsideKept skip p := by
  unfold walkOutput
  have hreach : Reach t skip [] p ↔ (∃ n, n ≠ .dir ∧ t.get? p = some n) ∧ p ≠ [] ∧ ¬ InsideKept skip p := by
    unfold Reach InsideKept
    constructor
    · rintro ⟨_, h1, h2, h3⟩
      refine ⟨h2, h1, ?_⟩
      rintro ⟨q, hq1, hq2, hq3, hq4⟩
      exact h3 q List.nil_prefix hq1 hq2 hq3 hq4
    · rintro ⟨h1, h2, h3⟩
      exact ⟨List.nil_prefix, h2, h1, fun q _ hq1 hq2 hq3 hq4 => h3 ⟨q, hq1, hq2, hq3, hq4⟩⟩
  by_cases hc : t.contains [] = true
  · rw [if_pos hc]
    by_cases hd : t.get? [] = some .dir
    · rw [walkGo_spec ht skip _ _ (by simpa using hd) (by
        simp only [List.map_cons, List.map_nil, List.sum_cons, List.sum_nil]
        have : below t [] ≤ t.length := by unfold below; exact List.countP_le_length
        omega)]
      simp only [List.mem_singleton, exists_eq_left]
      exact hreach
    · -- the root is not a directory: nothing is inside
      have hno : NoChild t [] := by
        intro q hq1 hq2
        rcases hg : t.get? q with _ | n
        · rfl
        · have := ht.parent q n hq1 hg
          rw [hq2] at this
          exact absurd this hd
      have hno' : ∀ q, q ≠ [] → t.get? q = none := by
        intro q hq
        rcases hg : t.get? q with _ | n
        · rfl
        · have := WellFormed.prefix_dir ht _ q [] n (Nat.le_refl _) hg List.nil_prefix (Ne.symm hq)
          exact absurd this hd
      have hsc : scandir t [] = [] := List.isEmpty_iff.1 ((scandir_isEmpty ht.wf []).2 hno)
      rw [walkGo, hsc]
      simp only [yielded, subdirs, List.filter_nil, List.map_nil, List.reverse_nil, List.append_nil, List.nil_append]
      have : walkGo t skip t.length [] = [] := by cases t.length <;> rfl
      rw [this]
      constructor
      · intro h; cases h
      · rintro ⟨⟨n, _, hg⟩, hp, _⟩
        rw [hno' p hp] at hg; cases hg
  · rw [if_neg hc]
    constructor
    · intro h; cases h
    · rintro ⟨⟨n, _, hg⟩, hp, _⟩
      have := WellFormed.prefix_dir ht _ p [] n (Nat.le_refl _) hg List.nil_prefix (Ne.symm hp)
      exact absurd (by unfold Dict.contains; rw [this]; rfl) hc

/-! ## Removal -/

theorem get?_foldl_erase {t : DirTree} (hw : Dict.WF t) (l : List (List Str)) (p : List Str) :
    (l.foldl Dict.erase t).WF ∧ (l.foldl Dict.erase t).get? p = if p ∈ l then none else t.get? p := by
  induction l generalizing t with
  | nil => exact ⟨hw, by simp⟩
  | cons a l ih =>
    rw [List.foldl_cons]
    obtain ⟨h1, h2⟩ := ih (hw.erase a)
    refine ⟨h1, ?_⟩
    rw [h2, Dict.get?_erase hw]
    by_cases hp : p ∈ l
    · rw [if_pos hp, if_pos (List.mem_cons_of_mem _ hp)]
    · rw [if_neg hp]
      by_cases ha : p = a
      · rw [if_pos ha, if_pos (by rw [ha]; exact List.mem_cons_self)]
      · rw [if_neg ha, if_neg (by simp [ha, hp])]

theorem rmdir_spec {t t' : DirTree} (ht : t.WellFormed) {d : List Str} (h : rmdir t d = some t') :
    t.get? d = some .dir ∧ NoChild t d ∧ t' = t.erase d ∧ t'.WellFormed ∧
      ∀ p, t'.get? p = if p = d then none else t.get? p := by
  unfold rmdir at h
  rcases hg : t.get? d with _ | n
  · rw [hg] at h; cases h
  · rw [hg] at h
    cases n with
    | file b => cases h
    | link b => cases h
    | dir =>
      simp only at h
      by_cases he : (scandir t d).isEmpty = true
      · rw [if_pos he] at h
        cases h
        have hnc := (scandir_isEmpty ht.wf d).1 he
        have hget : ∀ p, (t.erase d).get? p = if p = d then none else t.get? p := fun p => Dict.get?_erase ht.wf d p
        refine ⟨rfl, hnc, rfl, ⟨ht.wf.erase d, ?_⟩, hget⟩
        intro p n hp hpn
        rw [hget] at hpn
        by_cases hpd : p = d
        · rw [if_pos hpd] at hpn; cases hpn
        · rw [if_neg hpd] at hpn
          rw [hget]
          rw [if_neg ?_]
          · exact ht.parent p n hp hpn
          · intro hd
            rw [hnc p hp hd] at hpn; cases hpn
      · rw [if_neg he] at h; cases h

theorem rmdir_none {t : DirTree} (ht : t.WellFormed) {d : List Str} (h : rmdir t d = none) :
    ¬ (t.get? d = some .dir ∧ NoChild t d) := by
  rintro ⟨h1, h2⟩
  unfold rmdir at h
  rw [h1] at h
  simp only [(scandir_isEmpty ht.wf d).2 h2, if_true] at h
  cases h

/-- What one `removedirs` does -/
structure RemovesDirs (t t' : DirTree) (d : List Str) : Prop where
  tree : t'.WellFormed
  only : ∀ p, t'.get? p ≠ t.get? p → t.get? p = some .dir ∧ t'.get? p = none ∧ p <+: d
  empty : ∀ e, t'.get? e = some .dir → NoChild t' e → t.get? e = some .dir ∧ NoChild t e ∧ e ≠ d

theorem removedirsGo_spec (fuel : Nat) : ∀ (t : DirTree) (d : List Str), t.WellFormed → d.length < fuel →
    RemovesDirs t (removedirsGo fuel t d) d := by
  induction fuel with
  | zero => intro t d _ h; omega
  | succ fuel ih =>
    intro t d ht hl
    rw [removedirsGo]
    rcases hr : rmdir t d with _ | t1
    · refine ⟨ht, fun p h => absurd rfl h, ?_⟩
      intro e h1 h2
      refine ⟨h1, h2, ?_⟩
      rintro rfl
      exact rmdir_none ht hr ⟨h1, h2⟩
    · simp only
      obtain ⟨h1, h2, h3, h4, h5⟩ := rmdir_spec ht hr
      by_cases hd : d = []
      · rw [if_pos hd]
        refine ⟨h4, ?_, ?_⟩
        · intro p hp
          rw [h5] at hp
          by_cases hpd : p = d
          · rw [hpd]; exact ⟨h1, by rw [h5, if_pos rfl], List.prefix_refl _⟩
          · rw [if_neg hpd] at hp; exact absurd rfl hp
        · intro e he1 he2
          rw [h5] at he1
          by_cases hed : e = d
          · rw [if_pos hed] at he1; cases he1
          · rw [if_neg hed] at he1
            refine ⟨he1, ?_, hed⟩
            intro p hp hpe
            have := he2 p hp hpe
            rw [h5, if_neg (by rw [hd]; exact hp)] at this
            exact this
      · rw [if_neg hd]
        have hlen : d.dropLast.length < fuel := by
          rw [List.length_dropLast]
          have : d.length ≠ 0 := fun h => hd (List.length_eq_zero_iff.1 h)
          omega
        obtain ⟨g1, g2, g3⟩ := ih t1 d.dropLast h4 hlen
        refine ⟨g1, ?_, ?_⟩
        · intro p hp
          by_cases hq : (removedirsGo fuel t1 d.dropLast).get? p = t1.get? p
          · rw [hq, h5] at hp
            by_cases hpd : p = d
            · rw [hq, h5, if_pos hpd, hpd]; exact ⟨h1, rfl, List.prefix_refl _⟩
            · rw [if_neg hpd] at hp; exact absurd rfl hp
          · obtain ⟨k1, k2, k3⟩ := g2 p hq
            refine ⟨?_, k2, k3.trans (List.dropLast_prefix d)⟩
            rw [h5] at k1
            by_cases hpd : p = d
            · rw [if_pos hpd] at k1; cases k1
            · rw [if_neg hpd] at k1; exact k1
        · intro e he1 he2
          obtain ⟨k1, k2, k3⟩ := g3 e he1 he2
          rw [h5] at k1
          by_cases hed : e = d
          · rw [if_pos hed] at k1; cases k1
          · rw [if_neg hed] at k1
            refine ⟨k1, ?_, hed⟩
            intro p hp hpe
            have := k2 p hp hpe
            rw [h5] at this
            by_cases hpd : p = d
            · exact absurd (by rw [← hpe, hpd]) k3
            · rw [if_neg hpd] at this; exact this

theorem removedirs_spec {t : DirTree} (ht : t.WellFormed) (d : List Str) : RemovesDirs t (removedirs t d) d :=
  removedirsGo_spec _ t d ht (by omega)

theorem foldl_removedirs (ds : List (List Str)) (t : DirTree) (ht : t.WellFormed) :
    (ds.foldl removedirs t).WellFormed ∧
    (∀ p, (ds.foldl removedirs t).get? p ≠ t.get? p →
      t.get? p = some .dir ∧ (ds.foldl removedirs t).get? p = none ∧ ∃ d ∈ ds, p <+: d) ∧
    (∀ e, (ds.foldl removedirs t).get? e = some .dir → NoChild (ds.foldl removedirs t) e →
      t.get? e = some .dir ∧ NoChild t e ∧ e ∉ ds) := by
  induction ds generalizing t with
  | nil => exact ⟨ht, fun p h => absurd rfl h, fun e h1 h2 => ⟨h1, h2, by simp⟩⟩
  | cons d ds ih =>
    rw [List.foldl_cons]
    have hr := removedirs_spec ht d
    obtain ⟨h1, h2, h3⟩ := ih (removedirs t d) hr.tree
    refine ⟨h1, ?_, ?_⟩
    · intro p hp
      by_cases hq : (ds.foldl removedirs (removedirs t d)).get? p = (removedirs t d).get? p
      · rw [hq] at hp
        obtain ⟨k1, k2, k3⟩ := hr.only p hp
        exact ⟨k1, by rw [hq, k2], d, List.mem_cons_self, k3⟩
      · obtain ⟨k1, k2, d', hd', k3⟩ := h2 p hq
        refine ⟨?_, k2, d', List.mem_cons_of_mem _ hd', k3⟩
        by_cases hq2 : (removedirs t d).get? p = t.get? p
        · rw [← hq2]; exact k1
        · obtain ⟨_, k4, _⟩ := hr.only p hq2
          rw [k4] at k1; cases k1
    · intro e he1 he2
      obtain ⟨k1, k2, k3⟩ := h3 e he1 he2
      obtain ⟨j1, j2, j3⟩ := hr.empty e k1 k2
      exact ⟨j1, j2, by simp [j3, k3]⟩

/-- Files and symlinks that are not listed, outside of kept directories -/
def Extra (keptFiles keptLinks : List Str) (p : List Str) (n : FNode) : Prop :=
  ¬ InsideKept keptFiles p ∧ match n with
    | .file _ => join ['/'] p ∉ keptFiles
    | .link _ => join ['/'] p ∉ keptLinks
    | .dir => False

theorem mem_toRemove {t : DirTree} (ht : t.WellFormed) (hroot : ∀ n, t.get? [] = some n → n = .dir) (kf kl : List Str) (p : List Str) :
    p ∈ toRemove t kf kl ↔ ∃ n, t.get? p = some n ∧ Extra kf kl p n := by
  unfold toRemove
  rw [List.mem_filter, mem_walkOutput ht]
  constructor
  · rintro ⟨⟨⟨n, hn, hg⟩, hp, hk⟩, h⟩
    refine ⟨n, hg, hk, ?_⟩
    rw [hg] at h
    cases n with
    | file b => simpa using h
    | link b => simpa using h
    | dir => exact absurd rfl hn
  · rintro ⟨n, hg, hk, h⟩
    have hp : p ≠ [] := by
      rintro rfl
      have := hroot n hg
      subst this
      exact h
    cases n with
    | file b => exact ⟨⟨⟨_, by simp, hg⟩, hp, hk⟩, by rw [hg]; simpa using h⟩
    | link b => exact ⟨⟨⟨_, by simp, hg⟩, hp, hk⟩, by rw [hg]; simpa using h⟩
    | dir => exact absurd h (by simp)

/-- After cleaning:
* the files and symlinks are exactly the ones that were there, except the extra ones, unchanged;
* directories are never created, those that still contain something remain, and so do kept directories and all that is inside;
* a directory that is empty was already empty: the ones that were emptied are removed. -/
theorem C28_clean (iter : List (List Str) → List (List Str)) (hiter : ∀ l p, p ∈ iter l ↔ p ∈ l) (t : DirTree) (ht : t.WellFormed)
    (hroot : ∀ n, t.get? [] = some n → n = .dir) (keptFiles keptLinks : List Str) :
    let t' := cleanOutput iter t keptFiles keptLinks
    (∀ p n, n ≠ .dir → (t'.get? p = some n ↔ t.get? p = some n ∧ ¬ Extra keptFiles keptLinks p n)) ∧
    (∀ p, t'.get? p = some .dir → t.get? p = some .dir) ∧
    (∀ p q n, t'.get? p = some n → q <+: p → q ≠ p → t'.get? q = some .dir) ∧
    (∀ p, (join ['/'] p ∈ keptFiles ∧ p ≠ [] ∨ InsideKept keptFiles p) → t.get? p = some .dir → t'.get? p = some .dir) ∧
    (∀ d, t'.get? d = some .dir → NoChild t' d → NoChild t d) := by
  intro t'
  -- after the removal of files
  have hT : t' = (iter ((toRemove t keptFiles keptLinks).map List.dropLast)).foldl removedirs
      ((toRemove t keptFiles keptLinks).foldl Dict.erase t) := rfl
  generalize hF : toRemove t keptFiles keptLinks = F at hT
  have hmF : ∀ p, p ∈ F ↔ ∃ n, t.get? p = some n ∧ Extra keptFiles keptLinks p n := fun p => hF ▸ mem_toRemove ht hroot keptFiles keptLinks p
  generalize ht1 : F.foldl Dict.erase t = t1 at hT
  have hget1 : ∀ p, t1.get? p = if p ∈ F then none else t.get? p := fun p => ht1 ▸ (get?_foldl_erase ht.wf F p).2
  have hnd : ∀ p, t.get? p = some .dir → p ∉ F := by
    intro p hp hm
    obtain ⟨n, hn, he⟩ := (hmF p).1 hm
    rw [hp] at hn; cases hn
    exact he.2
  have hw1 : DirTree.WellFormed t1 := by
    refine ⟨ht1 ▸ (get?_foldl_erase ht.wf F []).1, ?_⟩
    intro p n hp hg
    rw [hget1] at hg
    by_cases hm : p ∈ F
    · rw [if_pos hm] at hg; cases hg
    · rw [if_neg hm] at hg
      have := ht.parent p n hp hg
      rw [hget1, if_neg (hnd _ this)]; exact this
  generalize hds : iter (F.map List.dropLast) = ds at hT
  have hmds : ∀ d, d ∈ ds ↔ ∃ p ∈ F, p.dropLast = d := by
    intro d; rw [← hds, hiter, List.mem_map]
  obtain ⟨g1, g2, g3⟩ := foldl_removedirs ds t1 hw1
  rw [← hT] at g1 g2 g3
  refine ⟨?_, ?_, ?_, ?_, ?_⟩
  · intro p n hn
    constructor
    · intro h
      have h1 : t1.get? p = some n := by
        by_contra hne
        have := (g2 p (by rw [h]; exact fun e => hne e.symm)).2.1
        rw [h] at this; cases this
      rw [hget1] at h1
      by_cases hm : p ∈ F
      · rw [if_pos hm] at h1; cases h1
      · rw [if_neg hm] at h1
        exact ⟨h1, fun he => hm ((hmF p).2 ⟨n, h1, he⟩)⟩
    · rintro ⟨h1, h2⟩
      have hm : p ∉ F := by
        intro hm
        obtain ⟨n', hn', he⟩ := (hmF p).1 hm
        rw [h1] at hn'; cases hn'; exact h2 he
      have h3 : t1.get? p = some n := by rw [hget1, if_neg hm]; exact h1
      by_contra hne
      have := (g2 p (by rw [h3]; exact hne)).1
      rw [h3] at this
      cases this
      exact hn rfl
  · intro p h
    have h1 : t1.get? p = some .dir := by
      by_contra hne
      have := (g2 p (by rw [h]; exact fun e => hne e.symm)).2.1
      rw [h] at this; cases this
    rw [hget1] at h1
    by_cases hm : p ∈ F
    · rw [if_pos hm] at h1; cases h1
    · rw [if_neg hm] at h1; exact h1
  · intro p q n hp hq hne
    exact WellFormed.prefix_dir g1 _ p q n (Nat.le_refl _) hp hq hne
  · intro p hk hp
    have h1 : t1.get? p = some .dir := by rw [hget1, if_neg (hnd p hp)]; exact hp
    by_contra hne
    obtain ⟨_, _, d, hd, hpd⟩ := g2 p (by rw [h1]; exact hne)
    obtain ⟨f, hf, rfl⟩ := (hmds d).1 hd
    obtain ⟨n, hfn, he, hcase⟩ := (hmF f).1 hf
    have hpf : p <+: f := hpd.trans (List.dropLast_prefix f)
    have hf0 : f ≠ [] := by
      rintro rfl
      have := hroot n hfn
      subst this
      exact hcase
    have hpne : p ≠ f := by
      rintro rfl
      have := hpd.length_le
      rw [List.length_dropLast] at this
      have : p.length ≠ 0 := fun h => hf0 (List.length_eq_zero_iff.1 h)
      omega
    apply he
    rcases hk with ⟨hk, hp0⟩ | ⟨q, hq1, hq2, hq3, hq4⟩
    · exact ⟨p, hp0, hpf, hpne, hk⟩
    · refine ⟨q, hq1, hq2.trans hpf, ?_, hq4⟩
      rintro rfl
      exact hq3 (hq2.eq_of_length_le hpf.length_le)
  · intro d hd hn
    obtain ⟨h1, h2, h3⟩ := g3 d hd hn
    intro p hp hpd
    have := h2 p hp hpd
    rw [hget1] at this
    by_cases hm : p ∈ F
    · exact absurd ((hmds d).2 ⟨p, hm, hpd⟩) h3
    · rw [if_neg hm] at this; exact this

/-- Boundary: the output directory itself is removed when it is emptied. -/
theorem C28_boundary (name : Str) (b : Bytes) :
    cleanOutput (fun l => l) [([], .dir), ([name], .file b)] [] [] = [] := by
  have h1 : toRemove [([], .dir), ([name], .file b)] [] [] = [[name]] := by
    simp [toRemove, walkOutput, Dict.contains, Dict.get?, walkGo, scandir, yielded, subdirs]
  unfold cleanOutput
  simp only [h1]
  simp [Dict.erase, removedirs, removedirsGo, rmdir, Dict.get?, scandir]

/-- Non-vacuity -/
example : DirTree.WellFormed [([], .dir), (["a".toList], .dir), (["a".toList, "x".toList], .file [1]), (["l".toList], .link [])] := by
  refine ⟨by unfold Dict.WF; decide +kernel, ?_⟩
  intro p n hp hg
  have := Dict.mem_of_get? hg
  simp only [List.mem_cons, List.not_mem_nil, or_false, Prod.mk.injEq] at this
  rcases this with ⟨rfl, rfl⟩ | ⟨rfl, rfl⟩ | ⟨rfl, rfl⟩ | ⟨rfl, rfl⟩
  · exact absurd rfl hp
  · decide +kernel
  · decide +kernel
  · decide +kernel

/-! ## Cases that meet the hypotheses -/

/-- Files and links that are not kept are removed, and the directories they leave empty; a kept directory stays -/
example : cleanOutput (fun l => l) [([], .dir), (["a".toList], .dir), (["a".toList, "x".toList], .file [1]), (["a".toList, "y".toList], .file [2]),
      (["b".toList], .dir), (["b".toList, "z".toList], .file [3]), (["l".toList], .link []), (["m".toList], .link [])] ["a/x".toList] ["m".toList] =
    [([], .dir), (["a".toList], .dir), (["a".toList, "x".toList], .file [1]), (["m".toList], .link [])] := by decide +kernel

end Cdtb
