import Verif.Lemmas.Symlinks
import Verif.Props.C28
import Mathlib.Data.List.Nodup
/-! # Lemmas on the export of a patch on top of the previous one -/
namespace Cdtb
set_option autoImplicit false
open Py

/-! ## Cleaning -/

theorem get?_subtree (t : DirTree) (base r : List Str) : (subtree t base).get? r = t.get? (base ++ r) := by
  unfold subtree
  induction t with
  | nil => rfl
  | cons e t ih =>
    obtain ⟨p, n⟩ := e
    rw [List.filter_cons]
    by_cases hb : base.isPrefixOf p = true
    · rw [if_pos hb, List.map_cons]
      rw [List.isPrefixOf_iff_prefix] at hb
      obtain ⟨s, rfl⟩ := hb
      simp only [List.drop_left']
      by_cases he : s = r
      · subst he; simp [Dict.get?]
      · simp only [Dict.get?, if_neg he, List.append_cancel_left_eq, ih]
    · rw [if_neg hb, ih]
      have : p ≠ base ++ r := by
        rintro rfl
        exact hb (List.isPrefixOf_iff_prefix.2 (List.prefix_append _ _))
      simp [Dict.get?, this]

theorem subtree_wf {t : DirTree} (ht : Dict.WF t) (base : List Str) : Dict.WF (subtree t base) := by
  unfold subtree Dict.WF Dict.keys
  rw [List.map_map]
  have h1 : ((t.filter fun e => base.isPrefixOf e.1).map (·.1)).Nodup := List.Nodup.sublist (List.filter_sublist.map _) ht
  have h2 : (t.filter fun e => base.isPrefixOf e.1).map ((·.1) ∘ fun e => (e.1.drop base.length, e.2)) =
      ((t.filter fun e => base.isPrefixOf e.1).map (·.1)).map (fun p => p.drop base.length) := by
    rw [List.map_map]; rfl
  rw [h2]
  refine List.Nodup.map_on ?_ h1
  intro a ha b hb hab
  obtain ⟨ea, hea, rfl⟩ := List.mem_map.1 ha
  obtain ⟨eb, heb, rfl⟩ := List.mem_map.1 hb
  have ha' := List.isPrefixOf_iff_prefix.1 (List.mem_filter.1 hea).2
  have hb' := List.isPrefixOf_iff_prefix.1 (List.mem_filter.1 heb).2
  obtain ⟨x, hx⟩ := ha'
  obtain ⟨y, hy⟩ := hb'
  rw [← hx, ← hy] at hab ⊢
  simpa using hab

theorem subtree_wellFormed {t : DirTree} (ht : t.WellFormed) (base : List Str) : (subtree t base).WellFormed := by
  refine ⟨subtree_wf ht.wf base, ?_⟩
  intro p n hp hg
  rw [get?_subtree] at hg ⊢
  have := ht.parent (base ++ p) n (by simp [hp]) hg
  rwa [dropLast_append_ne hp] at this

theorem get?_map_base (base : List Str) (d : DirTree) (p : List Str) :
    Dict.get? (d.map fun e => (base ++ e.1, e.2) : DirTree) p = if base <+: p then d.get? (p.drop base.length) else none := by
  induction d with
  | nil => simp [Dict.get?]
  | cons e d ih =>
    obtain ⟨q, n⟩ := e
    rw [List.map_cons]
    by_cases h : base <+: p
    · rw [if_pos h] at ih ⊢
      obtain ⟨r, rfl⟩ := h
      simp only [Dict.get?, List.append_cancel_left_eq, List.drop_left', ih]
    · rw [if_neg h] at ih ⊢
      have : base ++ q ≠ p := by
        rintro rfl
        exact h (List.prefix_append _ _)
      simp [Dict.get?, this, ih]

theorem get?_filter_key (P : List Str → Bool) (d : DirTree) (p : List Str) :
    Dict.get? (d.filter fun e => P e.1 : DirTree) p = if P p = true then d.get? p else none := by
  induction d with
  | nil => simp [Dict.get?]
  | cons e d ih =>
    obtain ⟨q, n⟩ := e
    rw [List.filter_cons]
    by_cases hq : P q = true
    · rw [if_pos hq]
      by_cases he : q = p
      · subst he; simp [Dict.get?, hq]
      · simp [Dict.get?, he, ih]
    · rw [if_neg hq, ih]
      by_cases he : q = p
      · subst he; simp [hq]
      · simp [Dict.get?, he]

theorem get?_cleanAt (iter : List (List Str) → List (List Str)) (t : DirTree) (base : List Str) (kept links : List Str) (p : List Str) :
    (cleanAt iter t base kept links).get? p =
      if base <+: p then (cleanOutput iter (subtree t base) kept links).get? (p.drop base.length) else t.get? p := by
  unfold cleanAt
  rw [Dict.get?_append, get?_map_base, get?_filter_key (fun q => !base.isPrefixOf q)]
  by_cases h : base <+: p
  · rw [if_pos h, if_pos h, if_neg (by simp [List.isPrefixOf_iff_prefix.2 h])]
    rfl
  · have : base.isPrefixOf p = false := by
      rw [Bool.eq_false_iff]
      intro hh
      exact h (List.isPrefixOf_iff_prefix.1 hh)
    rw [if_neg h, if_neg h, if_pos (by simp [this])]
    simp

theorem cleanOutput_wf (iter : List (List Str) → List (List Str)) (t : DirTree) (ht : t.WellFormed) (hroot : ∀ n, t.get? [] = some n → n = .dir)
    (kept links : List Str) : Dict.WF (cleanOutput iter t kept links) := by
  unfold cleanOutput
  simp only
  generalize hF : toRemove t kept links = F
  have hget1 : ∀ p, (F.foldl Dict.erase t).get? p = if p ∈ F then none else t.get? p := fun p => (get?_foldl_erase ht.wf F p).2
  have hnd : ∀ p, t.get? p = some .dir → p ∉ F := by
    intro p hp hm
    obtain ⟨n, hn, he⟩ := (mem_toRemove ht hroot kept links p).1 (hF ▸ hm)
    rw [hp] at hn; cases hn
    exact he.2
  have hw : DirTree.WellFormed (F.foldl Dict.erase t) := by
    refine ⟨(get?_foldl_erase ht.wf F []).1, ?_⟩
    intro p n hp hg
    rw [hget1] at hg ⊢
    by_cases hm : p ∈ F
    · rw [if_pos hm] at hg; cases hg
    · rw [if_neg hm] at hg
      have := ht.parent p n hp hg
      rw [if_neg (hnd _ this), this]
  exact (foldl_removedirs _ _ hw).1.wf

theorem cleanAt_wellFormed (iter : List (List Str) → List (List Str)) (hiter : ∀ l p, p ∈ iter l ↔ p ∈ l) {t : DirTree} (ht : t.WellFormed) (base : List Str)
    (hdir : ∀ n, t.get? base = some n → n = .dir) (kept links : List Str) : (cleanAt iter t base kept links).WellFormed := by
  have hroot : ∀ n, (subtree t base).get? [] = some n → n = .dir := fun n hn => hdir n (by rw [get?_subtree] at hn; simpa using hn)
  have hC := C28_clean iter hiter (subtree t base) (subtree_wellFormed ht base) hroot kept links
  constructor
  · unfold cleanAt Dict.WF Dict.keys
    rw [List.map_append, List.map_map]
    have h1 : ((t.filter fun e => !base.isPrefixOf e.1).map (·.1)).Nodup := List.Nodup.sublist (List.filter_sublist.map _) ht.wf
    have h2 : ((cleanOutput iter (subtree t base) kept links).map (·.1)).Nodup := cleanOutput_wf iter _ (subtree_wellFormed ht base) hroot kept links
    have h3 : (cleanOutput iter (subtree t base) kept links).map ((·.1) ∘ fun e => (base ++ e.1, e.2)) =
        ((cleanOutput iter (subtree t base) kept links).map (·.1)).map (fun p => base ++ p) := by
      rw [List.map_map]; rfl
    rw [h3, List.nodup_append]
    refine ⟨h1, List.Nodup.map_on (fun a _ b _ hab => List.append_cancel_left hab) h2, ?_⟩
    intro a ha b hb hab
    obtain ⟨e, he, rfl⟩ := List.mem_map.1 ha
    obtain ⟨q, _, rfl⟩ := List.mem_map.1 hb
    have := (List.mem_filter.1 he).2
    rw [hab, List.isPrefixOf_iff_prefix.2 (List.prefix_append _ _)] at this
    cases this
  · intro p n hp hg
    rw [get?_cleanAt] at hg ⊢
    by_cases hb : base <+: p
    · rw [if_pos hb] at hg
      obtain ⟨r, rfl⟩ := hb
      rw [List.drop_left] at hg
      by_cases hr : r = []
      · subst hr
        rw [List.append_nil] at hp ⊢
        rw [if_neg (not_prefix_dropLast hp)]
        have : ∃ m, t.get? base = some m := by
          by_cases hn : n = .dir
          · subst hn
            have := hC.2.1 [] hg
            rw [get?_subtree, List.append_nil] at this
            exact ⟨_, this⟩
          · have := ((hC.1 [] n hn).1 hg).1
            rw [get?_subtree, List.append_nil] at this
            exact ⟨_, this⟩
        obtain ⟨m, hm⟩ := this
        exact ht.parent base m hp hm
      · rw [dropLast_append_ne hr, if_pos (List.prefix_append _ _), List.drop_left]
        refine hC.2.2.1 r r.dropLast n hg (List.dropLast_prefix r) ?_
        intro he
        have : ¬ r <+: r.dropLast := not_prefix_dropLast hr
        rw [he] at this
        exact this (List.prefix_refl _)
    · rw [if_neg hb] at hg
      have hb' : ¬ base <+: p.dropLast := fun h => hb (h.trans (List.dropLast_prefix p))
      rw [if_neg hb']
      exact ht.parent p n hp hg

/-! ## Frames -/

/-- Nothing changes outside of `base`, and nothing is removed from it but files. -/
theorem frame_base {root : List Str} {cur : Str} {t t' : DirTree} (hroot : ∀ d, d <+: root → t.get? d = some .dir)
    (hdir : ∀ q, t.get? q = some .dir → t'.get? q = some .dir) (P : List Str → Prop)
    (h : ∀ q, (∀ r, P r → ¬ q <+: root ++ [cur] ++ r) → t'.get? q = t.get? q) (q : List Str) (hq : ¬ root ++ [cur] <+: q) : t'.get? q = t.get? q := by
  by_cases hex : ∃ r, P r ∧ q <+: root ++ [cur] ++ r
  · obtain ⟨r, _, hqr⟩ := hex
    have h1 : q <+: root ++ [cur] := by
      rcases List.prefix_or_prefix_of_prefix hqr (List.prefix_append (root ++ [cur]) r) with h | h
      · exact h
      · exact absurd h hq
    have hne : q ≠ root ++ [cur] := by
      rintro rfl
      exact hq (List.prefix_refl _)
    have h2 := prefix_dropLast h1 hne
    rw [List.dropLast_concat] at h2
    rw [hdir q (hroot q h2), hroot q h2]
  · exact h q (fun r hr hqr => hex ⟨r, hr, hqr⟩)

theorem noLink_base {root : List Str} {cur : Str} {t : DirTree} (hroot : ∀ d, d <+: root → t.get? d = some .dir) {p : List Str}
    (h : ∀ s, s <+: p → ∀ x, t.get? (root ++ [cur] ++ s) ≠ some (.link x)) : NoLink t (root ++ [cur] ++ p) := by
  have : NoLink t (root ++ cur :: p) := noLink_split (fun d hd x hx => by rw [hroot d hd] at hx; cases hx)
    (fun s hs x hx => h s hs x (by simpa using hx))
  simpa using this

/-- Creation of symlinks, none above another. `T r x` is what is known of the target `x` of the symlink at `r`. -/
theorem createSymlinks_ok {root : List Str} {cur prev : Str} (hp0 : ∀ c ∈ root ++ [cur], PlainName c) (L : List Str)
    (hpL : ∀ r ∈ L, ∀ c ∈ splitChar '/' r, PlainName c) (hL : ∀ r ∈ L, ∀ s ∈ L, splitChar '/' s <+: splitChar '/' r → splitChar '/' s = splitChar '/' r)
    (t0 : DirTree) (T : List Str → Str → Prop)
    (hT : ∀ t1 : DirTree, (∀ q, ¬ root ++ [cur] <+: q → t1.get? q = t0.get? q) → ∀ r ∈ L, ∀ src,
      realpath t1 (root ++ [prev] ++ splitChar '/' r) = some src → T (splitChar '/' r) (relpath src (root ++ [cur] ++ splitChar '/' r).dropLast))
    (l : List Str) (hl : ∀ r ∈ l, r ∈ L) {t t' : DirTree} (hroot : ∀ d, d <+: root → t.get? d = some .dir)
    (hframe : ∀ q, ¬ root ++ [cur] <+: q → t.get? q = t0.get? q)
    (hlinks : ∀ r x, t.get? (root ++ [cur] ++ r) = some (.link x) → (∃ s ∈ L, r = splitChar '/' s) ∧ T r x) {res : Res Unit}
    (h : createSymlinks root [cur] [prev] t l = (t', res)) :
    (t.WellFormed → t'.WellFormed) ∧
    (∀ q, ¬ root ++ [cur] <+: q → t'.get? q = t.get? q) ∧
    (∀ q x, (t'.get? q = some (.file x) ↔ t.get? q = some (.file x))) ∧
    (∀ q, t.get? q = some .dir → t'.get? q = some .dir) ∧
    (∀ q, t'.get? q = some .dir → t.get? q = some .dir ∨ ∃ r ∈ l, q <+: root ++ [cur] ++ splitChar '/' r ∧ q ≠ root ++ [cur] ++ splitChar '/' r) ∧
    (∀ q x, t.get? q = some (.link x) → t'.get? q = some (.link x)) ∧
    (∀ r x, t'.get? (root ++ [cur] ++ r) = some (.link x) → (∃ s ∈ L, r = splitChar '/' s) ∧ T r x) ∧
    (res = .ok () → ∀ r ∈ l, ∃ x, t'.get? (root ++ [cur] ++ splitChar '/' r) = some (.link x)) := by
  induction l generalizing t with
  | nil =>
    unfold createSymlinks at h
    simp only [Prod.mk.injEq] at h
    obtain ⟨rfl, rfl⟩ := h
    exact ⟨id, fun _ _ => rfl, fun _ _ => Iff.rfl, fun _ h => h, fun _ h => .inl h, fun _ _ h => h, hlinks, by simp⟩
  | cons r l ih =>
    unfold createSymlinks at h
    rcases hc : createSymlink root [cur] [prev] t r with ⟨t1, r1⟩
    have hr : r ∈ L := hl r (by simp)
    have hs : splitChar '/' r ≠ [] := splitChar_ne_nil _ _
    have hpr : ∀ c ∈ root ++ [cur] ++ splitChar '/' r, PlainName c := by
      intro c hc
      rcases List.mem_append.1 hc with h | h
      · exact hp0 c h
      · exact hpL r hr c h
    have hnl : NoLink t (root ++ [cur] ++ splitChar '/' r).dropLast := by
      rw [dropLast_append_ne hs]
      apply noLink_base hroot
      intro s hs' x hx
      obtain ⟨⟨s', hs1, rfl⟩, _⟩ := hlinks s x hx
      have := hL r hr s' hs1 (hs'.trans (List.dropLast_prefix _))
      rw [this] at hs'
      exact not_prefix_dropLast hs hs'
    obtain ⟨c1, c2, c3, c4, c5, c6, c7, c8, c9⟩ := createSymlink_ok hpr hnl hc
    have hfr1 : ∀ q, ¬ root ++ [cur] <+: q → t1.get? q = t.get? q :=
      frame_base hroot c5 (fun s => s = splitChar '/' r) (fun q hq => c2 q (hq _ rfl))
    have hroot1 : ∀ d, d <+: root → t1.get? d = some .dir := fun d hd => c5 d (hroot d hd)
    have hlinks1 : ∀ s x, t1.get? (root ++ [cur] ++ s) = some (.link x) → (∃ s' ∈ L, s = splitChar '/' s') ∧ T s x := by
      intro s x hx
      by_cases he : s = splitChar '/' r
      · subst he
        rcases c8 x hx with h | ⟨t2, src, h1, h2, h3, rfl⟩
        · exact hlinks _ x h
        · refine ⟨⟨r, hr, rfl⟩, hT t2 ?_ r hr src h3⟩
          intro q hq
          rw [← hframe q hq]
          rw [dropLast_append_ne hs] at h1
          exact frame_base hroot h2 (fun s => s = (splitChar '/' r).dropLast) (fun q hq => h1 q (hq _ rfl)) q hq
      · exact hlinks s x ((c4 _ (fun h => he (List.append_cancel_left h)) x).1 hx)
    have hkeep1 : ∀ q x, t.get? q = some (.link x) → t1.get? q = some (.link x) := by
      intro q x hx
      by_cases he : q = root ++ [cur] ++ splitChar '/' r
      · rw [he] at hx ⊢; exact c7 x hx
      · exact (c4 q he x).2 hx
    rw [hc] at h
    rcases r1 with e | ⟨⟩
    · simp only [Prod.mk.injEq] at h
      obtain ⟨rfl, rfl⟩ := h
      refine ⟨c1, hfr1, c3, c5, fun q hd => ?_, hkeep1, hlinks1, by simp⟩
      rcases c6 q hd with h | h
      · exact .inl h
      · exact .inr ⟨r, by simp, h⟩
    · simp only at h
      obtain ⟨i1, i2, i3, i4, i5, i6, i7, i8⟩ := ih (fun s hs => hl s (by simp [hs])) hroot1
        (fun q hq => by rw [hfr1 q hq, hframe q hq]) hlinks1 h
      refine ⟨fun hw => i1 (c1 hw), fun q hq => by rw [i2 q hq, hfr1 q hq], fun q x => by rw [i3, c3], fun q hd => i4 q (c5 q hd), ?_,
        fun q x hx => i6 q x (hkeep1 q x hx), i7, ?_⟩
      · intro q hd
        rcases i5 q hd with h | ⟨s, hs, h⟩
        · rcases c6 q h with h | h
          · exact .inl h
          · exact .inr ⟨r, by simp, h⟩
        · exact .inr ⟨s, by simp [hs], h⟩
      · intro hres s hs'
        rcases List.mem_cons.1 hs' with rfl | hs'
        · obtain ⟨x, hx⟩ := c9 rfl
          exact ⟨x, i6 _ x hx⟩
        · exact i8 hres s hs'

/-- All the writes of an export -/
theorem runTree_ok {root : List Str} {cur prev : Str} (hp0 : ∀ c ∈ root ++ [cur], PlainName c) (L : List Str)
    (hpL : ∀ r ∈ L, ∀ c ∈ splitChar '/' r, PlainName c) (hL : ∀ r ∈ L, ∀ s ∈ L, splitChar '/' s <+: splitChar '/' r → splitChar '/' s = splitChar '/' r)
    (T : List Str → Str → Prop) {t : DirTree}
    (hT : ∀ t1 : DirTree, (∀ q, ¬ root ++ [cur] <+: q → t1.get? q = t.get? q) → ∀ r ∈ L, ∀ src,
      realpath t1 (root ++ [prev] ++ splitChar '/' r) = some src → T (splitChar '/' r) (relpath src (root ++ [cur] ++ splitChar '/' r).dropLast))
    (hroot : ∀ d, d <+: root → t.get? d = some .dir)
    (hlinks : ∀ r x, t.get? (root ++ [cur] ++ r) = some (.link x) → (∃ s ∈ L, r = splitChar '/' s) ∧ T r x)
    (F G : List (List Str × Bytes)) (hpF : ∀ f ∈ F ++ G, ∀ c ∈ f.1, PlainName c) (hFL : ∀ f ∈ F ++ G, ∀ r ∈ L, ¬ splitChar '/' r <+: f.1)
    (l : List Str) (hl : ∀ r ∈ l, r ∈ L) {t' : DirTree} {res : Res Unit} (h : runTree root cur prev t F l G = (t', res)) :
    (t.WellFormed → t'.WellFormed) ∧
    (∀ q, ¬ root ++ [cur] <+: q → t'.get? q = t.get? q) ∧
    (∀ q x, (∀ f ∈ F ++ G, q ≠ root ++ [cur] ++ f.1) → (t'.get? q = some (.file x) ↔ t.get? q = some (.file x))) ∧
    (∀ q, t.get? q = some .dir → t'.get? q = some .dir) ∧
    (∀ q, t'.get? q = some .dir → t.get? q = some .dir ∨ (∃ f ∈ F ++ G, q <+: root ++ [cur] ++ f.1 ∧ q ≠ root ++ [cur] ++ f.1) ∨
      ∃ r ∈ l, q <+: root ++ [cur] ++ splitChar '/' r ∧ q ≠ root ++ [cur] ++ splitChar '/' r) ∧
    (∀ r x, t'.get? (root ++ [cur] ++ r) = some (.link x) → (∃ s ∈ L, r = splitChar '/' s) ∧ T r x) ∧
    (res = .ok () → (∀ r ∈ l, ∃ x, t'.get? (root ++ [cur] ++ splitChar '/' r) = some (.link x)) ∧
      ((∀ f ∈ F ++ G, ∀ g ∈ F ++ G, f.1 = g.1 → f.2 = g.2) → ∀ f ∈ F ++ G, t'.get? (root ++ [cur] ++ f.1) = some (.file f.2))) := by
  have hpp : ∀ f ∈ F ++ G, ∀ c ∈ root ++ [cur] ++ f.1, PlainName c := by
    intro f hf c hc
    rcases List.mem_append.1 hc with h | h
    · exact hp0 c h
    · exact hpF f hf c h
  have hnn : ∀ f ∈ F ++ G, root ++ [cur] ++ f.1 ≠ [] := by intro f _; simp
  have hno : ∀ t1 : DirTree, (∀ d, d <+: root → t1.get? d = some .dir) →
      (∀ r x, t1.get? (root ++ [cur] ++ r) = some (.link x) → (∃ s ∈ L, r = splitChar '/' s) ∧ T r x) →
      ∀ f ∈ F ++ G, NoLink t1 (root ++ [cur] ++ f.1) := by
    intro t1 h1 h2 f hf
    apply noLink_base h1
    intro s hs x hx
    obtain ⟨⟨r, hr, rfl⟩, _⟩ := h2 s x hx
    exact hFL f hf r hr hs
  have mF : ∀ {f : List Str × Bytes}, f ∈ F → f ∈ F ++ G := fun hf => List.mem_append_left _ hf
  have mG : ∀ {f : List Str × Bytes}, f ∈ G → f ∈ F ++ G := fun hf => List.mem_append_right _ hf
  unfold runTree at h
  rcases hw : writeFiles (root ++ [cur]) t F with ⟨t1, r1⟩
  obtain ⟨a0, a1, a2, a3, a4, a5, a6⟩ := writeFiles_ok F (fun f hf => hpp f (mF hf)) (fun f hf => hnn f (mF hf)) (fun f hf => hno t hroot hlinks f (mF hf)) hw
  have hfr1 : ∀ q, ¬ root ++ [cur] <+: q → t1.get? q = t.get? q := frame_base hroot a4 (fun r => ∃ f ∈ F, r = f.1) (fun q hq => a1 q (fun f hf => hq _ ⟨f, hf, rfl⟩))
  have hroot1 : ∀ d, d <+: root → t1.get? d = some .dir := fun d hd => a4 d (hroot d hd)
  have hlinks1 : ∀ r x, t1.get? (root ++ [cur] ++ r) = some (.link x) → (∃ s ∈ L, r = splitChar '/' s) ∧ T r x :=
    fun r x hx => hlinks r x ((a3 _ _).1 hx)
  rw [hw] at h
  rcases r1 with e | ⟨⟩
  · simp only [Prod.mk.injEq] at h
    obtain ⟨rfl, rfl⟩ := h
    refine ⟨a0, hfr1, fun q x hq => a2 q x (fun f hf => hq f (mF hf)), a4, ?_, hlinks1, by simp⟩
    intro q hd
    rcases a5 q hd with h | ⟨f, hf, h⟩
    · exact .inl h
    · exact .inr (.inl ⟨f, mF hf, h⟩)
  · simp only at h
    rcases hc : createSymlinks root [cur] [prev] t1 l with ⟨t2, r2⟩
    obtain ⟨b0, b1, b2, b3, b4, b5, b6, b7⟩ := createSymlinks_ok hp0 L hpL hL t T hT l hl hroot1 hfr1 hlinks1 hc
    have hfr2 : ∀ q, ¬ root ++ [cur] <+: q → t2.get? q = t.get? q := fun q hq => by rw [b1 q hq, hfr1 q hq]
    have hroot2 : ∀ d, d <+: root → t2.get? d = some .dir := fun d hd => b3 d (hroot1 d hd)
    rw [hc] at h
    rcases r2 with e | ⟨⟩
    · simp only [Prod.mk.injEq] at h
      obtain ⟨rfl, rfl⟩ := h
      refine ⟨fun hw => b0 (a0 hw), hfr2, fun q x hq => by rw [b2, a2 q x (fun f hf => hq f (mF hf))], fun q hd => b3 q (a4 q hd), ?_, b6, by simp⟩
      intro q hd
      rcases b4 q hd with h | h
      · rcases a5 q h with h | ⟨f, hf, h⟩
        · exact .inl h
        · exact .inr (.inl ⟨f, mF hf, h⟩)
      · exact .inr (.inr h)
    · simp only at h
      obtain ⟨d0, d1, d2, d3, d4, d5, d6⟩ := writeFiles_ok G (fun f hf => hpp f (mG hf)) (fun f hf => hnn f (mG hf)) (fun f hf => hno t2 hroot2 b6 f (mG hf)) h
      have hfr3 : ∀ q, ¬ root ++ [cur] <+: q → t'.get? q = t2.get? q := frame_base hroot2 d4 (fun r => ∃ f ∈ G, r = f.1) (fun q hq => d1 q (fun f hf => hq _ ⟨f, hf, rfl⟩))
      refine ⟨fun hw => d0 (b0 (a0 hw)), fun q hq => by rw [hfr3 q hq, hfr2 q hq], ?_, fun q hd => d4 q (b3 q (a4 q hd)), ?_, fun r x hx => b6 r x ((d3 _ _).1 hx), ?_⟩
      · intro q x hq
        rw [d2 q x (fun f hf => hq f (mG hf)), b2, a2 q x (fun f hf => hq f (mF hf))]
      · intro q hd
        rcases d5 q hd with h | ⟨f, hf, h⟩
        · rcases b4 q h with h | h
          · rcases a5 q h with h | ⟨f, hf, h⟩
            · exact .inl h
            · exact .inr (.inl ⟨f, mF hf, h⟩)
          · exact .inr (.inr h)
        · exact .inr (.inl ⟨f, mG hf, h⟩)
      · intro hres
        constructor
        · intro r hr
          obtain ⟨x, hx⟩ := b7 rfl r hr
          exact ⟨x, (d3 _ _).2 hx⟩
        · intro hfun f hf
          by_cases hg : ∃ g ∈ G, g.1 = f.1
          · obtain ⟨g, hg, he⟩ := hg
            have := d6 hres (fun a ha b hb => hfun a (mG ha) b (mG hb)) g hg
            rw [← he, this, hfun g (mG hg) f hf he]
          · have hfF : f ∈ F := by
              rcases List.mem_append.1 hf with h | h
              · exact h
              · exact absurd ⟨f, h, rfl⟩ hg
            rw [d2 _ _ (fun g hg' he => hg ⟨g, hg', (List.append_cancel_left he).symm⟩), b2]
            exact a6 rfl (fun a ha b hb => hfun a (mF ha) b (mF hb)) f hfF

end Cdtb
