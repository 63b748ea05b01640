import Verif.Spec.Symlinks
import Verif.Lemmas.Dict
import Verif.Lemmas.Str
import Mathlib.Data.List.Infix
/-! # Lemmas on paths with symlinks -/
namespace Cdtb
set_option autoImplicit false
open Py

/-- No symlink at a path nor above it -/
def NoLink (t : DirTree) (p : List Str) : Prop := ∀ q, q <+: p → ∀ x, t.get? q ≠ some (.link x)

theorem NoLink.prefix {t : DirTree} {p q : List Str} (h : NoLink t p) (hq : q <+: p) : NoLink t q :=
  fun r hr => h r (hr.trans hq)

/-- What is used after a symlink -/
def followOf (t : DirTree) : Nat → List Str → List Str → Option (List Str)
  | 0 => fun _ _ => none
  | n + 1 => realGo t n

theorem realGo_eq (t : DirTree) (n : Nat) : realGo t n = walkWith (followOf t n) t := by
  cases n <;> rfl

theorem realGo_nil (t : DirTree) (n : Nat) (cur : List Str) : realGo t n cur [] = some cur := by
  rw [realGo_eq]; rfl

theorem realGo_step {t : DirTree} (n : Nat) {cur : List Str} {c : Str} (rest : List Str) (hc : PlainName c)
    (h : ∀ x, t.get? (cur ++ [c]) ≠ some (.link x)) : realGo t n cur (c :: rest) = realGo t n (cur ++ [c]) rest := by
  rw [realGo_eq]
  conv_lhs => rw [walkWith]
  rw [if_neg (by simp [hc.1, hc.2.1]), if_neg hc.2.2.1]
  split
  · next x hx => exact absurd hx (h x)
  · rfl

theorem realGo_link {t : DirTree} (n : Nat) {cur : List Str} {c : Str} (rest : List Str) (hc : PlainName c) {x : Str}
    (h : t.get? (cur ++ [c]) = some (.link x)) (hx : startsWith x ['/'] = false) :
    realGo t (n + 1) cur (c :: rest) = realGo t n cur (splitChar '/' x ++ rest) := by
  rw [realGo_eq]
  conv_lhs => rw [walkWith]
  rw [if_neg (by simp [hc.1, hc.2.1]), if_neg hc.2.2.1, h]
  simp [hx, followOf]

theorem realGo_up (t : DirTree) (n : Nat) (cur rest : List Str) :
    realGo t n cur (['.', '.'] :: rest) = realGo t n cur.dropLast rest := by
  rw [realGo_eq]
  conv_lhs => rw [walkWith]
  rw [if_neg (by simp), if_pos rfl]

theorem realGo_ups (t : DirTree) (n k : Nat) (cur rest : List Str) :
    realGo t n cur (List.replicate k ['.', '.'] ++ rest) = realGo t n (cur.take (cur.length - k)) rest := by
  induction k generalizing cur with
  | zero => simp
  | succ k ih =>
    rw [List.replicate_succ, List.cons_append, realGo_up, ih]
    congr 1
    rw [List.dropLast_eq_take, List.take_take, List.length_take]
    congr 1
    omega

theorem realGo_plain {t : DirTree} (n : Nat) (cur p r : List Str) (hp : ∀ c ∈ p, PlainName c)
    (h : ∀ q, q <+: p → q ≠ [] → ∀ x, t.get? (cur ++ q) ≠ some (.link x)) : realGo t n cur (p ++ r) = realGo t n (cur ++ p) r := by
  induction p generalizing cur with
  | nil => simp
  | cons c p ih =>
    rw [List.cons_append, realGo_step n _ (hp c (by simp)) (fun x => h [c] (by simp) (by simp) x), ih _ (fun d hd => hp d (by simp [hd]))]
    · simp
    · intro q hq hq0 x
      have := h (c :: q) (List.cons_prefix_cons.2 ⟨rfl, hq⟩) (by simp) x
      simpa using this

/-- More symlinks may be followed. -/
theorem realGo_mono {t : DirTree} {n m : Nat} (hnm : n ≤ m) {cur p o : List Str} (h : realGo t n cur p = some o) : realGo t m cur p = some o := by
  have key : ∀ (n : Nat) (f g : List Str → List Str → Option (List Str)), (∀ a b o, f a b = some o → g a b = some o) →
      ∀ p cur o, walkWith f t cur p = some o → walkWith g t cur p = some o := by
    intro n f g hfg p
    induction p with
    | nil => intro cur o h; exact h
    | cons c p ih =>
      intro cur o h
      rw [walkWith] at h ⊢
      split at h
      · next hc => rw [if_pos hc]; exact ih _ _ h
      · next hc =>
        rw [if_neg hc]
        split at h
        · next hd => rw [if_pos hd]; exact ih _ _ h
        · next hd =>
          rw [if_neg hd]
          split at h
          · exact hfg _ _ _ h
          · exact ih _ _ h
  have mono1 : ∀ n cur p o, realGo t n cur p = some o → realGo t (n + 1) cur p = some o := by
    intro n
    induction n with
    | zero =>
      intro cur p o h
      exact key 0 (fun _ _ => none) (realGo t 0) (by simp) p cur o h
    | succ n ih =>
      intro cur p o h
      exact key 0 (realGo t n) (realGo t (n + 1)) (fun a b o => ih a b o) p cur o h
  induction hnm with
  | refl => exact h
  | step _ ih => exact mono1 _ _ _ _ ih

theorem prefix_dropLast {d p : List Str} (hd : d <+: p) (hne : d ≠ p) : d <+: p.dropLast := by
  have hlen := hd.length_le
  have h' := List.prefix_iff_eq_take.1 hd
  rcases Nat.lt_or_ge d.length p.length with h | h
  · rw [List.prefix_iff_eq_take, List.dropLast_eq_take, List.take_take, Nat.min_eq_left (by omega)]
    exact h'
  · exact absurd (hd.eq_of_length (by omega)) hne

theorem realpath_noLink {t : DirTree} {p : List Str} (hp : ∀ c ∈ p, PlainName c) (h : NoLink t p) : realpath t p = some p := by
  unfold realpath
  have := realGo_plain (t := t) maxLinks [] p [] hp (fun q hq _ x => by simpa using h q hq x)
  rw [List.append_nil] at this
  rw [this, realGo_nil]
  simp

/-! ## Operations -/

theorem mem_ancestors {o d : List Str} : d ∈ ancestors o ↔ d <+: o := by
  unfold ancestors
  rw [List.mem_map]
  constructor
  · rintro ⟨k, -, rfl⟩; exact List.take_prefix k o
  · intro h
    refine ⟨d.length, by rw [List.mem_range]; have := h.length_le; omega, ?_⟩
    exact (List.prefix_iff_eq_take.1 h).symm

theorem get?_makeMissing (l : List (List Str)) (t : DirTree) (p : List Str) :
    (l.foldl (fun (t : DirTree) d => if t.contains d then t else t.set d .dir) t).get? p =
      if p ∈ l ∧ t.get? p = none then some .dir else t.get? p := by
  induction l generalizing t with
  | nil => simp
  | cons d l ih =>
    rw [List.foldl_cons, ih]
    have hone : (if Dict.contains t d then t else Dict.set t d .dir : DirTree).get? p = if p = d ∧ t.get? p = none then some .dir else t.get? p := by
      by_cases hc : Dict.contains t d = true
      · rw [if_pos hc]
        rw [if_neg]
        rintro ⟨rfl, hn⟩
        rw [Dict.contains_iff] at hc
        exact (Dict.get?_eq_none.1 hn) hc
      · rw [if_neg hc, Dict.get?_set]
        have hn : t.get? d = none := Dict.get?_eq_none.2 (Dict.contains_eq_false.1 (by simpa using hc))
        by_cases hpd : p = d
        · subst hpd; simp [hn]
        · simp [hpd]
    rw [hone]
    by_cases h1 : p = d ∧ t.get? p = none
    · rw [if_pos h1, if_neg (by simp), if_pos ⟨by simp [h1.1], h1.2⟩]
    · rw [if_neg h1]
      by_cases h2 : p ∈ l ∧ t.get? p = none
      · rw [if_pos h2, if_pos ⟨by simp [h2.1], h2.2⟩]
      · rw [if_neg h2, if_neg]
        rintro ⟨h3, h4⟩
        rcases List.mem_cons.1 h3 with h | h
        · exact h1 ⟨h, h4⟩
        · exact h2 ⟨h, h4⟩

theorem WF_makeMissing (l : List (List Str)) (t : DirTree) (ht : Dict.WF t) :
    Dict.WF (l.foldl (fun (t : DirTree) d => if t.contains d then t else t.set d .dir) t) := by
  induction l generalizing t with
  | nil => exact ht
  | cons d l ih =>
    rw [List.foldl_cons]
    apply ih
    split
    · exact ht
    · exact ht.set _ _

theorem not_blocked {t : DirTree} {o : List Str} (h : blocked t o = false) (d : List Str) (hd : d <+: o) : t.get? d = some .dir ∨ t.get? d = none := by
  unfold blocked at h
  rw [List.any_eq_false] at h
  have := h d (mem_ancestors.2 hd)
  split at this
  · next h => exact .inl h
  · next h => exact .inr h
  · exact absurd rfl this

/-- `os.makedirs` on a path without symlinks -/
theorem makedirs_ok {t t' : DirTree} {p : List Str} (hp : ∀ c ∈ p, PlainName c) (hl : NoLink t p) {r : Res Unit}
    (h : makedirsTree t p = (t', r)) :
    (t.WellFormed → t'.WellFormed) ∧
    (r = .ok () → (∀ d, d <+: p → t'.get? d = some .dir ∧ (t.get? d = some .dir ∨ t.get? d = none)) ∧ ∀ q, ¬ q <+: p → t'.get? q = t.get? q) ∧
    (∀ e, r = .error e → t' = t) := by
  unfold makedirsTree at h
  rw [realpath_noLink hp hl] at h
  simp only at h
  split at h
  · simp only [Prod.mk.injEq] at h
    obtain ⟨rfl, rfl⟩ := h
    exact ⟨id, by simp, fun _ _ => rfl⟩
  · next hb =>
    simp only [Prod.mk.injEq] at h
    obtain ⟨rfl, rfl⟩ := h
    have key : (∀ d, d <+: p → (List.foldl (fun (t : DirTree) d => if t.contains d then t else t.set d .dir) t (ancestors p)).get? d = some .dir ∧
        (t.get? d = some .dir ∨ t.get? d = none)) ∧
        ∀ q, ¬ q <+: p → (List.foldl (fun (t : DirTree) d => if t.contains d then t else t.set d .dir) t (ancestors p)).get? q = t.get? q := by
      refine ⟨fun d hd => ?_, fun q hq => ?_⟩
      · have := not_blocked (by simpa using hb) d hd
        refine ⟨?_, this⟩
        rw [get?_makeMissing]
        rcases this with h | h
        · rw [if_neg (by simp [h]), h]
        · rw [if_pos ⟨mem_ancestors.2 hd, h⟩]
      · rw [get?_makeMissing, if_neg]
        rintro ⟨h1, _⟩
        exact hq (mem_ancestors.1 h1)
    refine ⟨fun hw => ⟨WF_makeMissing _ _ hw.wf, ?_⟩, fun _ => key, by simp⟩
    intro q n hq hn
    by_cases hqp : q <+: p
    · exact (key.1 _ ((List.dropLast_prefix q).trans hqp)).1
    · rw [key.2 q hqp] at hn
      have := hw.parent q n hq hn
      by_cases hqp' : q.dropLast <+: p
      · exact (key.1 _ hqp').1
      · rw [key.2 _ hqp', this]

theorem wellFormed_set {t : DirTree} (hw : t.WellFormed) {o : List Str} (n : FNode) (h0 : o ≠ []) (hd : t.get? o.dropLast = some .dir)
    (hnd : t.get? o ≠ some .dir) : DirTree.WellFormed (t.set o n) := by
  refine ⟨hw.wf.set _ _, ?_⟩
  intro p m hp hg
  have hpo : p.dropLast ≠ o := by
    rintro rfl
    rw [Dict.get?_set] at hg
    split at hg
    · next he =>
      have : p.length = p.dropLast.length := by rw [← he]
      rw [List.length_dropLast] at this
      have : p.length ≠ 0 := fun h => hp (List.length_eq_zero_iff.1 h)
      omega
    · exact hnd (hw.parent p m hp hg)
  rw [Dict.get?_set_ne _ _ hpo]
  by_cases he : p = o
  · rw [he, hd]
  · rw [Dict.get?_set_ne _ _ he] at hg
    exact hw.parent p m hp hg

/-- Writing a file at a path without symlinks -/
theorem writeTree_ok {t t' : DirTree} {p : List Str} {b : Bytes} (hp : ∀ c ∈ p, PlainName c) (hne : p ≠ []) (hl : NoLink t p) {r : Res Unit}
    (h : writeTree t p b = (t', r)) :
    (t.WellFormed → t'.WellFormed) ∧
    (∀ q, ¬ q <+: p → t'.get? q = t.get? q) ∧
    (∀ q x, q ≠ p → (t'.get? q = some (.file x) ↔ t.get? q = some (.file x))) ∧
    (∀ q x, (t'.get? q = some (.link x) ↔ t.get? q = some (.link x))) ∧
    (∀ q, t.get? q = some .dir → t'.get? q = some .dir) ∧
    (∀ q, t'.get? q = some .dir → t.get? q = some .dir ∨ q <+: p ∧ q ≠ p) ∧
    (r = .ok () → t'.get? p = some (.file b) ∧ ∀ d, d <+: p → d ≠ p → t'.get? d = some .dir) ∧
    (∀ e, r = .error e → ∀ x, t'.get? p = some (.file x) ↔ t.get? p = some (.file x)) := by
  unfold writeTree at h
  rcases hm : makedirsTree t p.dropLast with ⟨t1, e | ⟨⟩⟩
  · rw [hm] at h
    simp only [Prod.mk.injEq] at h
    obtain ⟨rfl, rfl⟩ := h
    obtain ⟨-, -, h3⟩ := makedirs_ok (fun c hc => hp c (List.dropLast_subset p hc)) (hl.prefix (List.dropLast_prefix p)) hm
    have := h3 e rfl
    subst this
    exact ⟨id, fun _ _ => rfl, fun _ _ _ => Iff.rfl, fun _ _ => Iff.rfl, fun _ h => h, fun _ h => .inl h, by simp, fun _ _ _ => Iff.rfl⟩
  · rw [hm] at h
    simp only at h
    obtain ⟨h0, h1, -⟩ := makedirs_ok (fun c hc => hp c (List.dropLast_subset p hc)) (hl.prefix (List.dropLast_prefix p)) hm
    obtain ⟨h1, h2⟩ := h1 rfl
    have hfile : ∀ q x, t1.get? q = some (.file x) ↔ t.get? q = some (.file x) := by
      intro q x
      by_cases hq : q <+: p.dropLast
      · rw [(h1 q hq).1]
        rcases (h1 q hq).2 with h | h <;> simp [h]
      · rw [h2 q hq]
    have hlink : ∀ q x, t1.get? q = some (.link x) ↔ t.get? q = some (.link x) := by
      intro q x
      by_cases hq : q <+: p.dropLast
      · rw [(h1 q hq).1]
        rcases (h1 q hq).2 with h | h <;> simp [h]
      · rw [h2 q hq]
    have hdir : ∀ q, t.get? q = some .dir → t1.get? q = some .dir := by
      intro q hd
      by_cases hq : q <+: p.dropLast
      · exact (h1 q hq).1
      · rw [h2 q hq, hd]
    have hp0 : p ≠ [] → ∀ q, t1.get? q = some .dir → t.get? q = some .dir ∨ q <+: p ∧ q ≠ p := by
      intro hp0 q hd
      by_cases hq : q <+: p.dropLast
      · refine .inr ⟨hq.trans (List.dropLast_prefix p), ?_⟩
        rintro rfl
        have := hq.length_le
        rw [List.length_dropLast] at this
        have : q.length ≠ 0 := fun h => hp0 (List.length_eq_zero_iff.1 h)
        omega
      · rw [h2 q hq] at hd; exact .inl hd
    have hframe : ∀ q, ¬ q <+: p → t1.get? q = t.get? q := fun q hq => h2 q (fun h => hq (h.trans (List.dropLast_prefix p)))
    have hl1 : NoLink t1 p := fun q hq x hx => hl q hq x ((hlink q x).1 hx)
    unfold openTree at h
    rw [realpath_noLink hp hl1] at h
    simp only at h
    split at h
    · simp only [Prod.mk.injEq] at h
      obtain ⟨rfl, rfl⟩ := h
      exact ⟨h0, hframe, fun q x _ => hfile q x, hlink, hdir, hp0 hne, by simp, fun _ _ x => hfile p x⟩
    · next hnd =>
      split at h
      · next hpd =>
        simp only [Prod.mk.injEq] at h
        obtain ⟨rfl, rfl⟩ := h
        refine ⟨fun hw => wellFormed_set (h0 hw) _ hne hpd hnd, ?_, ?_, ?_, ?_, ?_, fun _ => ⟨Dict.get?_set_self _ _ _, ?_⟩, by simp⟩
        · intro q hq
          have hqp : q ≠ p := by rintro rfl; exact hq (List.prefix_refl _)
          rw [Dict.get?_set_ne _ _ hqp, hframe q hq]
        · intro q x hq
          rw [Dict.get?_set_ne _ _ hq, hfile]
        · intro q x
          rw [Dict.get?_set]
          split
          · next he =>
            subst he
            simp only [Option.some.injEq, reduceCtorEq, false_iff]
            exact hl q (List.prefix_refl _) x
          · exact hlink q x
        · intro q hd
          rw [Dict.get?_set]
          split
          · next he => subst he; exact absurd (hdir q hd) hnd
          · exact hdir q hd
        · intro q hd
          rw [Dict.get?_set] at hd
          split at hd
          · cases hd
          · exact hp0 hne q hd
        · intro d hd hne
          rw [Dict.get?_set_ne _ _ hne]
          apply (h1 d _).1
          exact prefix_dropLast hd hne
      · simp only [Prod.mk.injEq] at h
        obtain ⟨rfl, rfl⟩ := h
        exact ⟨h0, hframe, fun q x _ => hfile q x, hlink, hdir, hp0 hne, by simp, fun _ _ x => hfile p x⟩

theorem makedirs_succeeds {t : DirTree} {p : List Str} (hp : ∀ c ∈ p, PlainName c)
    (h : ∀ d, d <+: p → t.get? d = some .dir ∨ t.get? d = none) : (makedirsTree t p).2 = .ok () := by
  have hl : NoLink t p := by
    intro d hd x hx
    rcases h d hd with h | h <;> rw [h] at hx <;> cases hx
  unfold makedirsTree
  rw [realpath_noLink hp hl]
  simp only
  rw [if_neg]
  intro hb
  unfold blocked at hb
  rw [List.any_eq_true] at hb
  obtain ⟨d, hd, hb⟩ := hb
  rcases h d (mem_ancestors.1 hd) with h | h <;> rw [h] at hb <;> simp at hb

theorem write_succeeds {t : DirTree} {p : List Str} (b : Bytes) (hp : ∀ c ∈ p, PlainName c) (hne : p ≠ [])
    (h : ∀ d, d <+: p → d ≠ p → t.get? d = some .dir ∨ t.get? d = none) (hd : t.get? p ≠ some .dir) (hl : ∀ x, t.get? p ≠ some (.link x)) :
    (writeTree t p b).2 = .ok () := by
  have hp' : ∀ c ∈ p.dropLast, PlainName c := fun c hc => hp c (List.dropLast_subset p hc)
  have hlt : ∀ d, d <+: p.dropLast → d ≠ p := by
    rintro d hd rfl
    have := hd.length_le
    rw [List.length_dropLast] at this
    have : d.length ≠ 0 := fun h => hne (List.length_eq_zero_iff.1 h)
    omega
  have h' : ∀ d, d <+: p.dropLast → t.get? d = some .dir ∨ t.get? d = none := fun d hd => h d (hd.trans (List.dropLast_prefix p)) (hlt d hd)
  have hl0 : NoLink t p := by
    intro d hd x hx
    by_cases he : d = p
    · subst he; exact hl x hx
    · rcases h d hd he with h | h <;> rw [h] at hx <;> cases hx
  have hs := makedirs_succeeds hp' h'
  unfold writeTree
  rcases hm : makedirsTree t p.dropLast with ⟨t1, e | ⟨⟩⟩
  · rw [hm] at hs; cases hs
  · simp only
    obtain ⟨-, h1, -⟩ := makedirs_ok hp' (hl0.prefix (List.dropLast_prefix p)) hm
    obtain ⟨h1, h2⟩ := h1 rfl
    have hp1 : t1.get? p = t.get? p := h2 p (fun h => hlt p h rfl)
    have hl1 : NoLink t1 p := by
      intro d hd x hx
      by_cases he : d = p
      · subst he; rw [hp1] at hx; exact hl x hx
      · rw [(h1 d (prefix_dropLast hd he)).1] at hx; cases hx
    unfold openTree
    rw [realpath_noLink hp hl1]
    simp only
    rw [if_neg (by rw [hp1]; exact hd), if_pos (h1 _ (List.prefix_refl _)).1]

/-- Files written at paths without symlinks -/
theorem writeFiles_ok {base : List Str} (l : List (List Str × Bytes)) {t t' : DirTree} (hp : ∀ f ∈ l, ∀ c ∈ base ++ f.1, PlainName c)
    (hne : ∀ f ∈ l, base ++ f.1 ≠ []) (hl : ∀ f ∈ l, NoLink t (base ++ f.1)) {r : Res Unit} (h : writeFiles base t l = (t', r)) :
    (t.WellFormed → t'.WellFormed) ∧
    (∀ q, (∀ f ∈ l, ¬ q <+: base ++ f.1) → t'.get? q = t.get? q) ∧
    (∀ q x, (∀ f ∈ l, q ≠ base ++ f.1) → (t'.get? q = some (.file x) ↔ t.get? q = some (.file x))) ∧
    (∀ q x, (t'.get? q = some (.link x) ↔ t.get? q = some (.link x))) ∧
    (∀ q, t.get? q = some .dir → t'.get? q = some .dir) ∧
    (∀ q, t'.get? q = some .dir → t.get? q = some .dir ∨ ∃ f ∈ l, q <+: base ++ f.1 ∧ q ≠ base ++ f.1) ∧
    (r = .ok () → (∀ f ∈ l, ∀ g ∈ l, f.1 = g.1 → f.2 = g.2) → ∀ f ∈ l, t'.get? (base ++ f.1) = some (.file f.2)) := by
  induction l generalizing t with
  | nil =>
    unfold writeFiles at h
    simp only [Prod.mk.injEq] at h
    obtain ⟨rfl, rfl⟩ := h
    simp
  | cons f l ih =>
    obtain ⟨p, b⟩ := f
    unfold writeFiles at h
    rcases hw : writeTree t (base ++ p) b with ⟨t1, r1⟩
    have hp1 : ∀ c ∈ base ++ p, PlainName c := hp (p, b) (by simp)
    have hn1 : base ++ p ≠ [] := hne (p, b) (by simp)
    obtain ⟨w1, w2, w3, w4, w5, w6, w7, w8⟩ := writeTree_ok hp1 hn1 (hl (p, b) (by simp)) hw
    rw [hw] at h
    rcases r1 with e | ⟨⟩
    · simp only [Prod.mk.injEq] at h
      obtain ⟨rfl, rfl⟩ := h
      refine ⟨w1, fun q hq => w2 q (hq (p, b) (by simp)), fun q x hq => w3 q x (hq (p, b) (by simp)), w4, w5, fun q hd => ?_, by simp⟩
      rcases w6 q hd with h | h
      · exact .inl h
      · exact .inr ⟨(p, b), by simp, h⟩
    · simp only at h
      obtain ⟨i1, i2, i3, i4, i5, i6, i7⟩ := ih (fun f hf => hp f (by simp [hf])) (fun f hf => hne f (by simp [hf]))
        (fun f hf q hq x hx => hl f (by simp [hf]) q hq x ((w4 q x).1 hx)) h
      refine ⟨fun hw => i1 (w1 hw), ?_, ?_, ?_, fun q hd => i5 q (w5 q hd), ?_, ?_⟩
      · intro q hq
        rw [i2 q (fun f hf => hq f (by simp [hf])), w2 q (hq (p, b) (by simp))]
      · intro q x hq
        rw [i3 q x (fun f hf => hq f (by simp [hf])), w3 q x (hq (p, b) (by simp))]
      · intro q x
        rw [i4, w4]
      · intro q hd
        rcases i6 q hd with h | ⟨f, hf, h⟩
        · rcases w6 q h with h | h
          · exact .inl h
          · exact .inr ⟨(p, b), by simp, h⟩
        · exact .inr ⟨f, by simp [hf], h⟩
      · intro hr hfun f hf
        have hfun' : ∀ f ∈ l, ∀ g ∈ l, f.1 = g.1 → f.2 = g.2 := fun f hf g hg => hfun f (by simp [hf]) g (by simp [hg])
        rcases List.mem_cons.1 hf with rfl | hf
        · by_cases hex : ∃ g ∈ l, g.1 = p
          · obtain ⟨g, hg, he⟩ := hex
            have := i7 hr hfun' g hg
            have hb := hfun (p, b) (by simp) g (by simp [hg]) he.symm
            rw [he] at this
            rw [this, ← hb]
          · rw [i3 _ _ (fun g hg he => hex ⟨g, hg, (List.append_cancel_left he).symm⟩)]
            exact (w7 rfl).1
        · exact i7 hr hfun' f hf

/-! ## Relative paths -/

theorem commonLength_root (root : List Str) {a b : Str} (hab : a ≠ b) (x y : List Str) :
    commonLength (root ++ a :: x) (root ++ b :: y) = root.length := by
  induction root with
  | nil => simp [commonLength, hab]
  | cons r root ih => simp [commonLength, ih]

/-- The target of the symlink at `r` in a directory of patch, to the directory `j` -/
def linkTarget (r : List Str) (j : Str) : List Str := List.replicate r.length ['.', '.'] ++ j :: r

theorem relpath_root (root : List Str) {v j : Str} (hvj : v ≠ j) {r : List Str} (hr : r ≠ []) :
    relpath (root ++ j :: r) (root ++ v :: r.dropLast) = join ['/'] (linkTarget r j) := by
  unfold relpath
  rw [commonLength_root root hvj]
  have h1 : (root ++ v :: r.dropLast).length - root.length = r.length := by
    have : r.length ≠ 0 := fun h => hr (List.length_eq_zero_iff.1 h)
    simp only [List.length_append, List.length_cons, List.length_dropLast]
    omega
  have h2 : (root ++ j :: r).drop root.length = j :: r := by simp
  simp only [h1, h2]
  split
  · next h => simp at h
  · rfl

theorem split_linkTarget {r : List Str} {j : Str} (hj : PlainName j) (hr : ∀ c ∈ r, PlainName c) :
    splitChar '/' (join ['/'] (linkTarget r j)) = linkTarget r j := by
  apply splitChar_join
  · simp [linkTarget]
  · intro c hc
    simp only [linkTarget, List.mem_append, List.mem_replicate, List.mem_cons] at hc
    rcases hc with ⟨-, rfl⟩ | rfl | hc
    · decide
    · exact hj.2.2.2
    · exact (hr c hc).2.2.2

theorem linkTarget_relative {r : List Str} {j : Str} (hr : r ≠ []) : startsWith (join ['/'] (linkTarget r j)) ['/'] = false := by
  obtain ⟨c, r', rfl⟩ := List.exists_cons_of_ne_nil hr
  have : linkTarget (c :: r') j = ['.', '.'] :: (List.replicate r'.length ['.', '.'] ++ j :: c :: r') := by
    simp [linkTarget, List.replicate_succ]
  rw [this]
  cases h : (List.replicate r'.length ['.', '.'] ++ j :: c :: r') with
  | nil => simp at h
  | cons a l => rfl

/-! ## Creation of one symlink -/

theorem dropLast_append_ne {a r : List Str} (hr : r ≠ []) : (a ++ r).dropLast = a ++ r.dropLast := by
  rw [List.dropLast_append_of_ne_nil hr]

theorem getLast_append_ne {a r : List Str} (hr : r ≠ []) : ∃ n, (a ++ r).getLast? = some n ∧ (a ++ r).dropLast ++ [n] = a ++ r := by
  have hne : a ++ r ≠ [] := by simp [hr]
  exact ⟨(a ++ r).getLast hne, List.getLast?_eq_some_getLast hne, List.dropLast_concat_getLast hne⟩

theorem not_prefix_dropLast {p : List Str} (hne : p ≠ []) : ¬ p <+: p.dropLast := by
  intro h
  have := h.length_le
  rw [List.length_dropLast] at this
  have : p.length ≠ 0 := fun h => hne (List.length_eq_zero_iff.1 h)
  omega

/-- One symlink, where no symlink is above its path -/
theorem createSymlink_ok {root cur prev : List Str} {t t' : DirTree} {link : Str} {res : Res Unit}
    (hp : ∀ c ∈ root ++ cur ++ splitChar '/' link, PlainName c) (hl : NoLink t (root ++ cur ++ splitChar '/' link).dropLast)
    (h : createSymlink root cur prev t link = (t', res)) :
    let dst := root ++ cur ++ splitChar '/' link
    (t.WellFormed → t'.WellFormed) ∧
    (∀ q, ¬ q <+: dst → t'.get? q = t.get? q) ∧
    (∀ q x, (t'.get? q = some (.file x) ↔ t.get? q = some (.file x))) ∧
    (∀ q, q ≠ dst → ∀ x, (t'.get? q = some (.link x) ↔ t.get? q = some (.link x))) ∧
    (∀ q, t.get? q = some .dir → t'.get? q = some .dir) ∧
    (∀ q, t'.get? q = some .dir → t.get? q = some .dir ∨ q <+: dst ∧ q ≠ dst) ∧
    (∀ x, t.get? dst = some (.link x) → t'.get? dst = some (.link x)) ∧
    (∀ x, t'.get? dst = some (.link x) → t.get? dst = some (.link x) ∨
      ∃ t1 src, (∀ q, ¬ q <+: dst.dropLast → t1.get? q = t.get? q) ∧ (∀ q, t.get? q = some .dir → t1.get? q = some .dir) ∧
        realpath t1 (root ++ prev ++ splitChar '/' link) = some src ∧ x = relpath src dst.dropLast) ∧
    (res = .ok () → ∃ x, t'.get? dst = some (.link x)) := by
  intro dst
  have hs : splitChar '/' link ≠ [] := splitChar_ne_nil _ _
  have hdne : dst ≠ [] := by simp [dst, hs]
  obtain ⟨name, hlast, hname⟩ := getLast_append_ne (a := root ++ cur) hs
  have hname : dst.dropLast ++ [name] = dst := hname
  have hlast : dst.getLast? = some name := hlast
  have hp' : ∀ c ∈ dst.dropLast, PlainName c := fun c hc => hp c (List.dropLast_subset _ hc)
  have hstat : lstat t dst = t.get? dst := by
    unfold lstat
    rw [realpath_noLink hp' hl]
    simp only [hlast, hname]
  have hself : (t.WellFormed → t.WellFormed) ∧
    (∀ q, ¬ q <+: dst → t.get? q = t.get? q) ∧
    (∀ q x, (t.get? q = some (.file x) ↔ t.get? q = some (.file x))) ∧
    (∀ q, q ≠ dst → ∀ x, (t.get? q = some (.link x) ↔ t.get? q = some (.link x))) ∧
    (∀ q, t.get? q = some .dir → t.get? q = some .dir) ∧
    (∀ q, t.get? q = some .dir → t.get? q = some .dir ∨ q <+: dst ∧ q ≠ dst) ∧
    (∀ x, t.get? dst = some (.link x) → t.get? dst = some (.link x)) ∧
    (∀ x, t.get? dst = some (.link x) → t.get? dst = some (.link x) ∨
      ∃ t1 src, (∀ q, ¬ q <+: dst.dropLast → t1.get? q = t.get? q) ∧ (∀ q, t.get? q = some .dir → t1.get? q = some .dir) ∧
        realpath t1 (root ++ prev ++ splitChar '/' link) = some src ∧ x = relpath src dst.dropLast) :=
    ⟨id, fun _ _ => rfl, fun _ _ => Iff.rfl, fun _ _ _ => Iff.rfl, fun _ h => h, fun _ h => .inl h, fun _ h => h, fun _ h => .inl h⟩
  unfold createSymlink at h
  simp only at h
  rw [show lstat t (root ++ cur ++ splitChar '/' link) = t.get? dst from hstat] at h
  rcases hn : t.get? dst with _ | n
  · rw [hn] at h
    simp only at h
    have hsame : ∀ {t1 : DirTree} {e : Err}, makedirsTree t dst.dropLast = (t1, .error e) → t1 = t := by
      intro t1 e hm
      obtain ⟨-, -, h3⟩ := makedirs_ok hp' hl hm
      exact h3 e rfl
    rcases hm : makedirsTree t dst.dropLast with ⟨t1, e | ⟨⟩⟩
    · rw [show makedirsTree t (root ++ cur ++ splitChar '/' link).dropLast = _ from hm] at h
      simp only [Prod.mk.injEq] at h
      obtain ⟨rfl, rfl⟩ := h
      have := hsame hm
      subst this
      obtain ⟨s1, s2, s3, s4, s5, s6, s7, s8⟩ := hself
      exact ⟨s1, s2, s3, s4, s5, s6, by simp, by simp [hn], by simp⟩
    · rw [show makedirsTree t (root ++ cur ++ splitChar '/' link).dropLast = _ from hm] at h
      simp only at h
      obtain ⟨m0, m1, -⟩ := makedirs_ok hp' hl hm
      obtain ⟨m1, m2⟩ := m1 rfl
      have hfile : ∀ q x, t1.get? q = some (.file x) ↔ t.get? q = some (.file x) := by
        intro q x
        by_cases hq : q <+: dst.dropLast
        · rw [(m1 q hq).1]
          rcases (m1 q hq).2 with h | h <;> simp [h]
        · rw [m2 q hq]
      have hlink : ∀ q x, t1.get? q = some (.link x) ↔ t.get? q = some (.link x) := by
        intro q x
        by_cases hq : q <+: dst.dropLast
        · rw [(m1 q hq).1]
          rcases (m1 q hq).2 with h | h <;> simp [h]
        · rw [m2 q hq]
      have hdir : ∀ q, t.get? q = some .dir → t1.get? q = some .dir := by
        intro q hd
        by_cases hq : q <+: dst.dropLast
        · exact (m1 q hq).1
        · rw [m2 q hq, hd]
      have hnew : ∀ q, t1.get? q = some .dir → t.get? q = some .dir ∨ q <+: dst ∧ q ≠ dst := by
        intro q hd
        by_cases hq : q <+: dst.dropLast
        · refine .inr ⟨hq.trans (List.dropLast_prefix _), ?_⟩
          rintro rfl
          exact not_prefix_dropLast hdne hq
        · rw [m2 q hq] at hd; exact .inl hd
      have hframe : ∀ q, ¬ q <+: dst → t1.get? q = t.get? q := fun q hq => m2 q (fun h => hq (h.trans (List.dropLast_prefix _)))
      have hdst1 : t1.get? dst = none := by rw [m2 dst (not_prefix_dropLast hdne), hn]
      have hl1 : NoLink t1 dst.dropLast := fun q hq x hx => hl q hq x ((hlink q x).1 hx)
      rw [show realpath t1 (root ++ cur ++ splitChar '/' link).dropLast = some dst.dropLast from realpath_noLink hp' hl1] at h
      have hmid : (t.WellFormed → t1.WellFormed) ∧
        (∀ q, ¬ q <+: dst → t1.get? q = t.get? q) ∧
        (∀ q x, (t1.get? q = some (.file x) ↔ t.get? q = some (.file x))) ∧
        (∀ q, q ≠ dst → ∀ x, (t1.get? q = some (.link x) ↔ t.get? q = some (.link x))) ∧
        (∀ q, t.get? q = some .dir → t1.get? q = some .dir) ∧
        (∀ q, t1.get? q = some .dir → t.get? q = some .dir ∨ q <+: dst ∧ q ≠ dst) ∧
        (∀ x, none = some (FNode.link x) → t1.get? dst = some (.link x)) ∧
        (∀ x, t1.get? dst = some (.link x) → none = some (FNode.link x) ∨
          ∃ t2 src, (∀ q, ¬ q <+: dst.dropLast → t2.get? q = t.get? q) ∧ (∀ q, t.get? q = some .dir → t2.get? q = some .dir) ∧
            realpath t2 (root ++ prev ++ splitChar '/' link) = some src ∧ x = relpath src dst.dropLast) :=
        ⟨m0, hframe, hfile, fun q _ => hlink q, hdir, hnew, by simp, fun x hx => by rw [hdst1] at hx; cases hx⟩
      obtain ⟨s1, s2, s3, s4, s5, s6, s7, s8⟩ := hmid
      rcases hsrc : realpath t1 (root ++ prev ++ splitChar '/' link) with _ | src
      · rw [hsrc] at h
        simp only [Prod.mk.injEq] at h
        obtain ⟨rfl, rfl⟩ := h
        exact ⟨s1, s2, s3, s4, s5, s6, s7, s8, by simp⟩
      · rw [hsrc] at h
        simp only at h
        unfold symlinkTree at h
        rw [show realpath t1 (root ++ cur ++ splitChar '/' link).dropLast = some dst.dropLast from realpath_noLink hp' hl1,
          show (root ++ cur ++ splitChar '/' link).getLast? = some name from hlast] at h
        simp only [hname] at h
        have hnc : Dict.contains t1 dst = false := Dict.contains_eq_false.2 (Dict.get?_eq_none.1 hdst1)
        rw [if_neg (by simp [hnc]), if_pos (m1 _ (List.prefix_refl _)).1] at h
        simp only [Prod.mk.injEq] at h
        obtain ⟨rfl, rfl⟩ := h
        refine ⟨fun hw => wellFormed_set (s1 hw) _ hdne (m1 _ (List.prefix_refl _)).1 (by rw [hdst1]; simp), ?_, ?_, ?_, ?_, ?_, by simp, ?_, fun _ => ⟨_, Dict.get?_set_self _ _ _⟩⟩
        · intro q hq
          have hqd : q ≠ dst := by rintro rfl; exact hq (List.prefix_refl _)
          rw [Dict.get?_set_ne _ _ hqd, s2 q hq]
        · intro q x
          rw [Dict.get?_set]
          split
          · next he => subst he; simp [hn]
          · exact s3 q x
        · intro q hq x
          rw [Dict.get?_set_ne _ _ hq]
          exact s4 q hq x
        · intro q hd
          rw [Dict.get?_set]
          split
          · next he => subst he; rw [hn] at hd; cases hd
          · exact s5 q hd
        · intro q hd
          rw [Dict.get?_set] at hd
          split at hd
          · cases hd
          · exact s6 q hd
        · intro x hx
          rw [Dict.get?_set_self] at hx
          simp only [Option.some.injEq, FNode.link.injEq] at hx
          exact .inr ⟨t1, src, m2, hdir, hsrc, hx.symm⟩
  · obtain ⟨s1, s2, s3, s4, s5, s6, s7, s8⟩ := hself
    rw [hn] at h s7 s8
    rcases n with b | x | -
    · simp only [Prod.mk.injEq] at h
      obtain ⟨rfl, rfl⟩ := h
      exact ⟨s1, s2, s3, s4, s5, s6, by simp, by simp [hn], by simp⟩
    · simp only [Prod.mk.injEq] at h
      obtain ⟨rfl, rfl⟩ := h
      exact ⟨s1, s2, s3, s4, s5, s6, by simp [hn], by simp [hn], fun _ => ⟨x, hn⟩⟩
    · simp only [Prod.mk.injEq] at h
      obtain ⟨rfl, rfl⟩ := h
      exact ⟨s1, s2, s3, s4, s5, s6, by simp, by simp [hn], by simp⟩

theorem createSymlink_succeeds {root cur prev : List Str} {t : DirTree} {link : Str}
    (hp : ∀ c ∈ root ++ cur ++ splitChar '/' link, PlainName c)
    (hd : ∀ d, d <+: root ++ cur ++ splitChar '/' link → d ≠ root ++ cur ++ splitChar '/' link → t.get? d = some .dir ∨ t.get? d = none)
    (hx : t.get? (root ++ cur ++ splitChar '/' link) = none ∨ ∃ x, t.get? (root ++ cur ++ splitChar '/' link) = some (.link x))
    (hsrc : ∀ t1 : DirTree, (∀ q, ¬ q <+: (root ++ cur ++ splitChar '/' link).dropLast → t1.get? q = t.get? q) →
      (∀ q, t.get? q = some .dir → t1.get? q = some .dir) → ∃ src, realpath t1 (root ++ prev ++ splitChar '/' link) = some src) :
    (createSymlink root cur prev t link).2 = .ok () := by
  have hs : splitChar '/' link ≠ [] := splitChar_ne_nil _ _
  obtain ⟨name, hlast, hname⟩ := getLast_append_ne (a := root ++ cur) hs
  have hdne : root ++ cur ++ splitChar '/' link ≠ [] := by simp [hs]
  have hp' : ∀ c ∈ (root ++ cur ++ splitChar '/' link).dropLast, PlainName c := fun c hc => hp c (List.dropLast_subset _ hc)
  have hd' : ∀ d, d <+: (root ++ cur ++ splitChar '/' link).dropLast → t.get? d = some .dir ∨ t.get? d = none := by
    intro d hdd
    refine hd d (hdd.trans (List.dropLast_prefix _)) ?_
    rintro rfl
    exact not_prefix_dropLast hdne hdd
  have hl : NoLink t (root ++ cur ++ splitChar '/' link).dropLast := by
    intro d hdd x hx
    rcases hd' d hdd with h | h <;> rw [h] at hx <;> cases hx
  have hstat : lstat t (root ++ cur ++ splitChar '/' link) = t.get? (root ++ cur ++ splitChar '/' link) := by
    unfold lstat
    rw [realpath_noLink hp' hl]
    simp only [hlast, hname]
  unfold createSymlink
  simp only
  rw [hstat]
  rcases hx with hn | ⟨x, hn⟩
  · rw [hn]
    simp only
    have hms := makedirs_succeeds hp' hd'
    rcases hm : makedirsTree t (root ++ cur ++ splitChar '/' link).dropLast with ⟨t1, e | ⟨⟩⟩
    · rw [hm] at hms; cases hms
    · simp only
      obtain ⟨-, m1, -⟩ := makedirs_ok hp' hl hm
      obtain ⟨m1, m2⟩ := m1 rfl
      have hl1 : NoLink t1 (root ++ cur ++ splitChar '/' link).dropLast := by
        intro q hq x hx
        rw [(m1 q hq).1] at hx; cases hx
      obtain ⟨src, hsrc⟩ := hsrc t1 m2 (by
        intro q hq
        by_cases hqq : q <+: (root ++ cur ++ splitChar '/' link).dropLast
        · exact (m1 q hqq).1
        · rw [m2 q hqq, hq])
      rw [hsrc, realpath_noLink hp' hl1]
      simp only
      unfold symlinkTree
      rw [realpath_noLink hp' hl1, hlast]
      simp only [hname]
      have hdst1 : t1.get? (root ++ cur ++ splitChar '/' link) = none := by rw [m2 _ (not_prefix_dropLast hdne), hn]
      have hnc : Dict.contains t1 (root ++ cur ++ splitChar '/' link) = false := Dict.contains_eq_false.2 (Dict.get?_eq_none.1 hdst1)
      rw [if_neg (by rw [hnc]; simp), if_pos (m1 _ (List.prefix_refl _)).1]
  · simp only [hn]

/-! ## Directories of patches -/

/-- The symlinks in the directories of patches (newest first) lead to files or directories of older patches, at the same place. -/
def LinkChain (t : DirTree) (root : List Str) : List Str → Prop
  | [] => True
  | v :: older => v ∉ older ∧ PlainName v ∧
    (∀ r x, t.get? (root ++ v :: r) = some (.link x) → r ≠ [] ∧ (∀ c ∈ r, PlainName c) ∧
      ∃ j ∈ older, x = join ['/'] (linkTarget r j) ∧ NoLink t (root ++ j :: r)) ∧ LinkChain t root older

theorem LinkChain.names {t : DirTree} {root : List Str} {vs : List Str} (h : LinkChain t root vs) : ∀ v ∈ vs, PlainName v := by
  induction vs with
  | nil => simp
  | cons v vs ih =>
    intro u hu
    rcases List.mem_cons.1 hu with rfl | hu
    · exact h.2.1
    · exact ih h.2.2.2 u hu

theorem LinkChain.nodup {t : DirTree} {root : List Str} {vs : List Str} (h : LinkChain t root vs) : vs.Nodup := by
  induction vs with
  | nil => simp
  | cons v vs ih => exact List.nodup_cons.2 ⟨h.1, ih h.2.2.2⟩

theorem LinkChain.link {t : DirTree} {root : List Str} {vs : List Str} (h : LinkChain t root vs) {v : Str} (hv : v ∈ vs) {r : List Str} {x : Str}
    (hx : t.get? (root ++ v :: r) = some (.link x)) : r ≠ [] ∧ (∀ c ∈ r, PlainName c) ∧
      ∃ j ∈ vs, x = join ['/'] (linkTarget r j) ∧ NoLink t (root ++ j :: r) := by
  induction vs with
  | nil => simp at hv
  | cons u vs ih =>
    rcases List.mem_cons.1 hv with rfl | hv
    · obtain ⟨h1, h2, j, hj, h3⟩ := h.2.2.1 r x hx
      exact ⟨h1, h2, j, by simp [hj], h3⟩
    · obtain ⟨h1, h2, j, hj, h3⟩ := ih h.2.2.2 hv
      exact ⟨h1, h2, j, by simp [hj], h3⟩

theorem noLink_split {t : DirTree} {root : List Str} (hr : NoLink t root) {v : Str} {q : List Str}
    (h : ∀ s, s <+: q → ∀ x, t.get? (root ++ v :: s) ≠ some (.link x)) : NoLink t (root ++ v :: q) := by
  intro p hp x hx
  rcases Nat.lt_or_ge root.length p.length with hlen | hlen
  · have h1 : root <+: p := List.prefix_of_prefix_length_le (List.prefix_append _ _) hp (by omega)
    obtain ⟨s, rfl⟩ := h1
    rw [List.prefix_append_right_inj] at hp
    rcases s with _ | ⟨u, s⟩
    · simp at hlen
    · obtain ⟨rfl, hs⟩ := List.cons_prefix_cons.1 hp
      exact h s hs x hx
  · have h1 : p <+: root := List.prefix_of_prefix_length_le hp (List.prefix_append _ _) (by omega)
    exact hr p h1 x hx

/-- The same objects in the directories of patches -/
def SameIn (t t' : DirTree) (root : List Str) (vs : List Str) : Prop := ∀ v ∈ vs, ∀ r, t'.get? (root ++ v :: r) = t.get? (root ++ v :: r)

theorem NoLink.same {t t' : DirTree} {root : List Str} {vs : List Str} (hs : SameIn t t' root vs) (hr : NoLink t' root) {v : Str} (hv : v ∈ vs)
    {q : List Str} (h : NoLink t (root ++ v :: q)) : NoLink t' (root ++ v :: q) := by
  apply noLink_split hr
  intro s hsq x hx
  rw [hs v hv] at hx
  exact h _ ((List.prefix_append_right_inj _).2 (List.cons_prefix_cons.2 ⟨rfl, hsq⟩)) x hx

theorem LinkChain.same {t t' : DirTree} {root : List Str} {vs : List Str} (hs : SameIn t t' root vs) (hr : NoLink t' root)
    (h : LinkChain t root vs) : LinkChain t' root vs := by
  induction vs with
  | nil => trivial
  | cons v vs ih =>
    refine ⟨h.1, h.2.1, ?_, ih (fun u hu => hs u (by simp [hu])) h.2.2.2⟩
    intro r x hx
    rw [hs v (by simp)] at hx
    obtain ⟨h1, h2, j, hj, h3, h4⟩ := h.2.2.1 r x hx
    exact ⟨h1, h2, j, hj, h3, NoLink.same hs hr (by simp [hj]) h4⟩

/-- A walk through a symlink of a patch -/
theorem realGo_linkTarget {t : DirTree} {root : List Str} (n : Nat) {v j : Str} {r : List Str} {c : Str} (rest : List Str)
    (hj : PlainName j) (hr : ∀ d ∈ r ++ [c], PlainName d) (hn : NoLink t (root ++ j :: (r ++ [c])))
    (hx : t.get? (root ++ v :: (r ++ [c])) = some (.link (join ['/'] (linkTarget (r ++ [c]) j)))) :
    realGo t (n + 1) (root ++ v :: r) (c :: rest) = realGo t n (root ++ j :: (r ++ [c])) rest := by
  have hx' : t.get? ((root ++ v :: r) ++ [c]) = some (.link (join ['/'] (linkTarget (r ++ [c]) j))) := by simpa using hx
  rw [realGo_link n rest (hr c (by simp)) hx' (linkTarget_relative (by simp)), split_linkTarget hj hr]
  unfold linkTarget
  rw [List.append_assoc, realGo_ups]
  have : (root ++ v :: r).take ((root ++ v :: r).length - (r ++ [c]).length) = root := by
    have : (root ++ v :: r).length - (r ++ [c]).length = root.length := by simp
    rw [this]; simp
  rw [this]
  rw [realGo_plain n root (j :: (r ++ [c])) rest]
  · intro d hd
    rcases List.mem_cons.1 hd with rfl | hd
    · exact hj
    · exact hr d hd
  · intro q hq _ x
    exact hn (root ++ q) ((List.prefix_append_right_inj _).2 hq) x

/-- Where a path leads, in directories of patches; it only depends on these directories. -/
theorem chain_walk {t : DirTree} {root : List Str} {vs : List Str} (h : LinkChain t root vs) (rest : List Str) (j : Str) (hj : j ∈ vs) (r : List Str)
    (hp : ∀ c ∈ r ++ rest, PlainName c) (hn : NoLink t (root ++ j :: r)) :
    ∃ j' ∈ vs, NoLink t (root ++ j' :: (r ++ rest)) ∧ ∀ t' : DirTree, SameIn t t' root vs → NoLink t' root →
      realGo t' rest.length (root ++ j :: r) rest = some (root ++ j' :: (r ++ rest)) := by
  induction rest generalizing j r with
  | nil => exact ⟨j, hj, by simpa using hn, fun t' _ _ => by rw [realGo_nil]; simp⟩
  | cons c rest ih =>
    have hp1 : ∀ d ∈ (r ++ [c]) ++ rest, PlainName d := by simpa using hp
    have hrc : ∀ d ∈ r ++ [c], PlainName d := fun d hd => hp1 d (by rw [List.mem_append]; exact .inl hd)
    by_cases hx : ∃ x, t.get? (root ++ j :: (r ++ [c])) = some (.link x)
    · obtain ⟨x, hx⟩ := hx
      obtain ⟨_, _, j2, hj2, rfl, hn2⟩ := h.link hj hx
      obtain ⟨j', hj', h1, h2⟩ := ih j2 hj2 (r ++ [c]) hp1 hn2
      refine ⟨j', hj', by simpa using h1, fun t' hs hr => ?_⟩
      rw [List.length_cons, realGo_linkTarget _ _ (h.names j2 hj2) hrc (NoLink.same hs hr hj2 hn2) (by rw [hs j hj]; exact hx), h2 t' hs hr]
      simp
    · have hn2 : NoLink t (root ++ j :: (r ++ [c])) := by
        intro p hpp x hpx
        by_cases he : p = root ++ j :: (r ++ [c])
        · subst he; exact hx ⟨x, hpx⟩
        · have := prefix_dropLast hpp he
          rw [show (root ++ j :: (r ++ [c])).dropLast = root ++ j :: r by
            rw [dropLast_append_ne (by simp)]; congr 1; rw [← List.cons_append, List.dropLast_concat]] at this
          exact hn p this x hpx
      obtain ⟨j', hj', h1, h2⟩ := ih j hj (r ++ [c]) hp1 hn2
      refine ⟨j', hj', by simpa using h1, fun t' hs hr => ?_⟩
      rw [List.length_cons, realGo_step _ _ (hp c (by simp))]
      · have := h2 t' hs hr
        have h3 := realGo_mono (Nat.le_succ _) this
        simpa using h3
      · intro x hx'
        have : t'.get? (root ++ j :: (r ++ [c])) = some (.link x) := by simpa using hx'
        rw [hs j hj] at this
        exact hx ⟨x, this⟩

/-- Two walks one after the other -/
theorem realGo_append {t : DirTree} (n m : Nat) (p cur o rest o' : List Str) (h1 : realGo t n cur p = some o) (h2 : realGo t m o rest = some o') :
    realGo t (n + m) cur (p ++ rest) = some o' := by
  induction n generalizing cur p with
  | zero =>
    induction p generalizing cur with
    | nil =>
      rw [realGo_nil] at h1; cases h1
      simpa using h2
    | cons c p ih =>
      rw [realGo_eq, walkWith] at h1
      rw [List.cons_append, realGo_eq, walkWith]
      simp only [← realGo_eq] at h1 ⊢
      split at h1
      · next hc => rw [if_pos hc]; exact ih _ h1
      · next hc =>
        rw [if_neg hc]
        split at h1
        · next hd => rw [if_pos hd]; exact ih _ h1
        · next hd =>
          rw [if_neg hd]
          split at h1
          · next x hx => cases h1
          · exact ih _ h1
  | succ n ihn =>
    induction p generalizing cur with
    | nil =>
      rw [realGo_nil] at h1; cases h1
      rw [List.nil_append]
      exact realGo_mono (Nat.le_add_left m (n + 1)) h2
    | cons c p ih =>
      rw [realGo_eq, walkWith] at h1
      rw [List.cons_append, realGo_eq, walkWith]
      simp only [← realGo_eq] at h1 ⊢
      split at h1
      · next hc => rw [if_pos hc]; exact ih _ h1
      · next hc =>
        rw [if_neg hc]
        split at h1
        · next hd => rw [if_pos hd]; exact ih _ h1
        · next hd =>
          rw [if_neg hd]
          split at h1
          · next x hx =>
            have := ihn _ _ h1
            rw [show n + 1 + m = (n + m) + 1 by omega]
            simpa [followOf] using this
          · exact ih _ h1

theorem realpath_root {t : DirTree} {root : List Str} (hr : NoLink t root) (hp : ∀ c ∈ root, PlainName c) {v : Str} (hv : PlainName v)
    (hl : ∀ x, t.get? (root ++ [v]) ≠ some (.link x)) (q : List Str) : realpath t (root ++ v :: q) = realGo t maxLinks (root ++ [v]) q := by
  unfold realpath
  rw [show root ++ v :: q = (root ++ [v]) ++ q by simp, realGo_plain maxLinks [] (root ++ [v]) q]
  · simp
  · intro c hc
    rcases List.mem_append.1 hc with h | h
    · exact hp c h
    · rw [List.mem_singleton.1 h]; exact hv
  · intro p hpp _ x
    rw [List.nil_append]
    by_cases he : p = root ++ [v]
    · rw [he]; exact hl x
    · have := prefix_dropLast hpp he
      rw [List.dropLast_concat] at this
      exact hr p this x

end Cdtb
