import Verif.Props.C72
/-! # C72: when the augments can be read -/
namespace Cdtb
set_option autoImplicit false
open Py Spec

theorem augmentRoot_total {env : BinEnv} {entries : List BinEntry} {fields : List BinField} {vs : List (BinPy × BinPy)} {c : Ser}
    (h : Spec.AugmentData env entries fields vs c) :
    ∃ r, augmentRoot env (Dict.ofList ((entries.filter fun e => isType env e "SpellObject".toList).map fun e => (e.path, e))) fields = .ok r := by
  generalize hD : Dict.ofList ((entries.filter fun e => isType env e "SpellObject".toList).map fun e => (e.path, e)) = D
  obtain ⟨root, hr, hd⟩ := h
  unfold augmentRoot
  simp only
  rw [(fieldD_iff (by decide) _ _).2 hr]
  rcases hd with ⟨hf, -⟩ | ⟨hf, n, e, spell, sf, l, items, pairs, h1, h2, h3, h4, h5, h6, h7, -, h8⟩
  · rw [(pyTruthy_iff _).2 hf]; exact ⟨_, rfl⟩
  · have ht : pyTruthy root = true := by
      rcases hh : pyTruthy root with _ | _
      · exact absurd ((pyTruthy_iff _).1 hh) hf
      · rfl
    rw [if_pos ht]
    unfold augmentSpell
    have hg := spellAt_iff.2 h2
    rw [hD] at hg
    rw [byPath_total h1 hg]
    simp only [bind, Except.bind]
    rw [(fieldD_iff (by decide) _ _).2 (.inl h3), (fieldsOf_iff _ _).2 h4]
    simp only
    rw [(fieldD_either (by decide) (by decide) _ _).2 h5, (iterPy_iff _ _).2 h6]
    simp only
    rw [augmentValues_total h7]
    simp only
    rcases hc : getField sf (.str "mSpellCalculations".toList) with x | f
    · exact ⟨_, rfl⟩
    · obtain ⟨g1, g2⟩ := C23_get sf (.str "mSpellCalculations".toList) _ (designates_name (by decide))
      rcases h8 with ⟨f', h8, h9⟩ | ⟨h8, -⟩
      · have := (g1 f').2 h8
        rw [hc] at this
        cases this
        simp only [h9]
        exact ⟨_, rfl⟩
      · have := g2.2 h8
        rw [hc] at this
        cases this

theorem augmentOf_total {lib : ArenaLib} {entries : List BinEntry} {fields : List BinField}
    (h : Spec.AugmentEnabled fields → ∃ vs c, Spec.AugmentData lib.bin entries fields vs c) :
    ∃ o, augmentOf lib (Dict.ofList ((entries.filter fun e => isType lib.bin e "SpellObject".toList).map fun e => (e.path, e))) fields = .ok o := by
  unfold augmentOf
  split
  · exact ⟨_, rfl⟩
  · rename_i he
    rw [Bool.not_eq_true', Bool.eq_false_iff, Classical.not_not] at he
    obtain ⟨vs, c, hd⟩ := h fun p hp hf => by
      have : fieldD fields "enabled".toList (.value (.bool true)) = p := (fieldD_iff (by decide) _ _).2 (.inl hp)
      rw [this, (pyTruthy_iff p).2 hf] at he
      cases he
    obtain ⟨r, hr⟩ := augmentRoot_total hd
    rw [hr]
    exact ⟨_, rfl⟩

theorem augmentsOf_total {lib : ArenaLib} {spells : Dict Nat BinEntry} {es : List BinEntry} (h : ∀ e ∈ es, ∃ o, augmentOf lib spells e.fields = .ok o) :
    ∃ as, augmentsOf lib spells es = .ok as := by
  induction es with
  | nil => exact ⟨_, rfl⟩
  | cons e es ih =>
    obtain ⟨o, ho⟩ := h e (by simp)
    obtain ⟨as, has⟩ := ih fun x hx => h x (by simp [hx])
    unfold augmentsOf
    rw [ho]
    simp only [bind, Except.bind, has]
    exact ⟨_, rfl⟩

/-- **C72 (which files can be read).** Parsing succeeds exactly when every augment that is not disabled has readable data: no root spell, or one
that is in the file, whose data values are objects with at least an old value (or none given) and whose calculations can be serialized. Together with
`C72_augments`, this tells what is given for every file. -/
theorem C72_readable (lib : ArenaLib) (entries : List BinEntry) :
    (∃ as, parseAugments lib entries = .ok as) ↔
    ∀ e ∈ entries, Spec.HasType lib.bin e "AugmentData".toList → Spec.AugmentEnabled e.fields → ∃ vs c, Spec.AugmentData lib.bin entries e.fields vs c := by
  constructor
  · rintro ⟨as, h⟩ e he ht hen
    classical
    have h1 := C72_augments lib entries as h
    obtain ⟨a, -, ha⟩ := forall₂_mem_left h1 (List.mem_filter.2 ⟨he, decide_eq_true ⟨ht, hen⟩⟩)
    exact ⟨_, _, ha.data⟩
  · intro h
    refine augmentsOf_total fun e he => augmentOf_total fun hen => ?_
    rw [List.mem_filter] at he
    exact h e he.1 ((isType_iff (by decide)).1 he.2) hen

/-! ## Cases that meet the hypotheses -/

/-- The file of `C72_augments_met` can be read: the disabled augment, whose spell is missing, does not matter. -/
example : ∃ as, parseAugments arenaExLib [arenaExAugment [arenaExField "RootSpell" (.hashed .entry 5)], arenaExSpell,
    arenaExAugment [arenaExField "enabled" (.bool false), arenaExField "RootSpell" (.hashed .entry 9)], arenaExAugment []] = .ok as := by
  have h := C72_augments_met
  revert h
  generalize parseAugments arenaExLib _ = r
  cases r with
  | ok as => exact fun _ => ⟨as, rfl⟩
  | error e => simp

/-- Without the flag, it matters. -/
example : ¬∃ as, parseAugments arenaExLib [arenaExSpell, arenaExAugment [arenaExField "RootSpell" (.hashed .entry 9)]] = .ok as := by
  have h : (match parseAugments arenaExLib [arenaExSpell, arenaExAugment [arenaExField "RootSpell" (.hashed .entry 9)]] with
    | .ok _ => true | .error _ => false) = false := by decide +kernel
  rintro ⟨as, has⟩
  rw [has] at h
  cases h

end Cdtb
