import Verif.Spec.Arena
import Verif.Lemmas.PyData
import Verif.Props.C18
import Verif.Props.C59names
/-! # Parsing augments -/
namespace Cdtb
set_option autoImplicit false
open Py Spec

theorem pyTruthy_iff (p : BinPy) : pyTruthy p = false ↔ Spec.Falsy p := by
  constructor
  · intro h
    unfold pyTruthy at h
    split at h
    · constructor
    · constructor
    · subst h; constructor
    · simp only [decide_eq_false_iff_not, ne_eq, Classical.not_not] at h; subst h; constructor
    · simp only [decide_eq_false_iff_not, ne_eq, Classical.not_not] at h; exact .float _ h
    · rename_i s; cases s <;> first | constructor | cases h
    · rename_i s; cases s <;> first | constructor | cases h
    · rename_i s; cases s <;> first | constructor | cases h
    · rename_i s; cases s <;> first | constructor | cases h
    · cases h
    · rename_i s; cases s <;> first | constructor | cases h
    · rename_i s; cases s <;> first | constructor | cases h
    · cases h
  · intro h
    cases h with
    | float b h => simp [pyTruthy, h]
    | _ => rfl

theorem zeroKey_iff (v : BinValue) : isZeroKey v = true ↔ Spec.ZeroKey v := by
  constructor
  · intro h
    unfold isZeroKey at h
    split at h
    · have := of_decide_eq_true h; subst this; constructor
    · rename_i b; cases b <;> first | constructor | cases h
    · exact .float _ (of_decide_eq_true h)
    · have := of_decide_eq_true h; subst this; constructor
    · cases h
  · intro h
    cases h with
    | float b h => exact decide_eq_true h
    | _ => rfl

theorem index0_iff (p x : BinPy) : index0 p = .ok x ↔ Spec.FirstItem p x := by
  constructor
  · intro h
    unfold index0 at h
    split at h
    · cases h
    · cases h; constructor
    · rename_i l
      split at h
      · rename_i p hp
        cases h
        obtain ⟨h1, a, b, rfl, h2⟩ := List.find?_eq_some_iff_append.1 hp
        refine .dict p a b ((zeroKey_iff _).1 h1) fun q hq hz => ?_
        have := h2 q hq
        rw [Bool.not_eq_true', Bool.eq_false_iff] at this
        exact this ((zeroKey_iff _).2 hz)
      · cases h
    · cases h
    · cases h; constructor
    · cases h
    · cases h; constructor
    · cases h
    · cases h; constructor
    · cases h
    · cases h; constructor
    · cases h
    · cases h
    · cases h
  · intro h
    cases h with
    | dict p a b h ha =>
      unfold index0
      have : (a ++ p :: b).find? (fun p => isZeroKey p.key) = some p := by
        refine List.find?_eq_some_iff_append.2 ⟨(zeroKey_iff _).2 h, a, b, rfl, fun q hq => ?_⟩
        rw [Bool.not_eq_true', Bool.eq_false_iff]
        exact fun hz => ha q hq ((zeroKey_iff _).1 hz)
      simp only [this]
    | _ => rfl

theorem iterPy_iff (p : BinPy) (l : List BinPy) : iterPy p = .ok l ↔ Spec.Items p l := by
  constructor
  · intro h
    unfold iterPy at h
    split at h <;> cases h <;> constructor
  · intro h
    cases h <;> rfl

theorem Spec.SameName.symm' {a b : BinPy} (h : Spec.SameName a b) : Spec.SameName b a := by cases h <;> constructor
theorem Spec.SameName.trans' {a b c : BinPy} (h : Spec.SameName a b) (h' : Spec.SameName b c) : Spec.SameName a c := by cases h <;> cases h' <;> constructor

theorem samePy_of {a b : BinPy} (h : Spec.SameName a b) : samePy a b = true := by
  cases h <;> simp [samePy, BinValue.sameKey]

theorem samePy_left {a b : BinPy} (ha : Spec.SameName a a) (h : samePy a b = true) : Spec.SameName a b := by
  cases ha with
  | none => cases b <;> first | constructor | cases h
  | str s =>
    cases b with
    | value v =>
      cases v with
      | str t => have := of_decide_eq_true h; subst this; constructor
      | _ => cases h
    | _ => cases h
  | hashed k k' n =>
    cases b with
    | value v =>
      cases v with
      | hashed k'' m => have := of_decide_eq_true h; subst this; constructor
      | _ => cases h
    | _ => cases h

theorem samePy_right {a b : BinPy} (hb : Spec.SameName b b) (h : samePy a b = true) : Spec.SameName a b := by
  cases hb with
  | none => cases a <;> first | constructor | cases h
  | str s =>
    cases a with
    | value v =>
      cases v with
      | str t => have := of_decide_eq_true h; subst this; constructor
      | _ => cases h
    | _ => cases h
  | hashed k k' n =>
    cases a with
    | value v =>
      cases v with
      | hashed k'' m => have := of_decide_eq_true h; subst this; constructor
      | _ => cases h
    | _ => cases h

theorem Spec.SameName.refl_left {a b : BinPy} (h : Spec.SameName a b) : Spec.SameName a a := h.trans' h.symm'

/-- The keys of `pySet` -/
theorem mem_pySet {V : Type} {d : List (BinPy × V)} {k : BinPy} {v : V} {x : BinPy × V} (h : x ∈ pySet d k v) : x ∈ d ∨ (x.2 = v ∧ (x.1 = k ∨ (samePy x.1 k = true ∧ ∃ w, (x.1, w) ∈ d))) := by
  induction d with
  | nil => simp only [pySet, List.mem_singleton] at h; subst h; exact .inr ⟨rfl, .inl rfl⟩
  | cons y d ih =>
    obtain ⟨k', v'⟩ := y
    unfold pySet at h
    split at h
    · rename_i hs
      rcases List.mem_cons.1 h with rfl | h
      · exact .inr ⟨rfl, .inr ⟨hs, v', by simp⟩⟩
      · exact .inl (by simp [h])
    · rcases List.mem_cons.1 h with rfl | h
      · exact .inl (by simp)
      · rcases ih h with h | ⟨h1, h | ⟨h2, w, h3⟩⟩
        · exact .inl (by simp [h])
        · exact .inr ⟨h1, .inl h⟩
        · exact .inr ⟨h1, .inr ⟨h2, w, by simp [h3]⟩⟩

theorem pySet_once {V : Type} {d : List (BinPy × V)} (k : BinPy) (v : V) (h : d.Pairwise fun x y => ¬ Spec.SameName x.1 y.1) :
    (pySet d k v).Pairwise fun x y => ¬ Spec.SameName x.1 y.1 := by
  induction d with
  | nil => simp [pySet]
  | cons y d ih =>
    obtain ⟨k', v'⟩ := y
    rw [List.pairwise_cons] at h
    unfold pySet
    split
    · exact List.pairwise_cons.2 ⟨h.1, h.2⟩
    · rename_i hs
      refine List.pairwise_cons.2 ⟨fun x hx hsame => ?_, ih h.2⟩
      rcases mem_pySet hx with hx | ⟨-, hx | ⟨-, w, hx⟩⟩
      · exact h.1 x hx hsame
      · exact hs (by rw [← hx]; exact samePy_of hsame)
      · exact h.1 _ hx hsame

/-- What is found under a name after `pySet` -/
theorem pySet_get {V : Type} {d : List (BinPy × V)} {k j : BinPy} {v w : V} (hk : Spec.SameName k k) (hd : d.Pairwise fun x y => ¬ Spec.SameName x.1 y.1) :
    (∃ k', Spec.SameName k k' ∧ (k', w) ∈ pySet d j v) ↔ (Spec.SameName k j ∧ w = v) ∨ (¬ Spec.SameName k j ∧ ∃ k', Spec.SameName k k' ∧ (k', w) ∈ d) := by
  induction d with
  | nil =>
    simp only [pySet, List.mem_singleton, List.not_mem_nil, and_false, exists_false, or_false, Prod.mk.injEq]
    constructor
    · rintro ⟨k', h1, rfl, rfl⟩; exact ⟨h1, rfl⟩
    · rintro ⟨h1, rfl⟩; exact ⟨j, h1, rfl, rfl⟩
  | cons y d ih =>
    obtain ⟨i, u⟩ := y
    rw [List.pairwise_cons] at hd
    unfold pySet
    split
    · rename_i hs
      have hij : Spec.SameName k i ↔ Spec.SameName k j := by
        constructor
        · intro h; exact h.trans' (samePy_left h.symm'.refl_left hs)
        · intro h; exact h.trans' (samePy_right h.symm'.refl_left hs).symm'
      constructor
      · rintro ⟨k', h1, h2⟩
        rcases List.mem_cons.1 h2 with h2 | h2
        · cases h2; exact .inl ⟨hij.1 h1, rfl⟩
        · refine .inr ⟨fun h => ?_, k', h1, by simp [h2]⟩
          exact hd.1 _ h2 ((hij.2 h).symm'.trans' h1)
      · rintro (⟨h1, rfl⟩ | ⟨h1, k', h2, h3⟩)
        · exact ⟨i, hij.2 h1, by simp⟩
        · rcases List.mem_cons.1 h3 with h3 | h3
          · cases h3; exact absurd (hij.1 h2) h1
          · exact ⟨k', h2, by simp [h3]⟩
    · rename_i hs
      have hne : Spec.SameName k i → ¬ Spec.SameName k j := fun h h' => hs (samePy_of (h.symm'.trans' h'))
      have e1 : (∃ k', Spec.SameName k k' ∧ (k', w) ∈ (i, u) :: pySet d j v) ↔ (Spec.SameName k i ∧ w = u) ∨ ∃ k', Spec.SameName k k' ∧ (k', w) ∈ pySet d j v := by
        constructor
        · rintro ⟨k', h1, h2⟩
          rcases List.mem_cons.1 h2 with h2 | h2
          · cases h2; exact .inl ⟨h1, rfl⟩
          · exact .inr ⟨k', h1, h2⟩
        · rintro (⟨h1, rfl⟩ | ⟨k', h1, h2⟩)
          · exact ⟨i, h1, by simp⟩
          · exact ⟨k', h1, by simp [h2]⟩
      have e2 : (∃ k', Spec.SameName k k' ∧ (k', w) ∈ (i, u) :: d) ↔ (Spec.SameName k i ∧ w = u) ∨ ∃ k', Spec.SameName k k' ∧ (k', w) ∈ d := by
        constructor
        · rintro ⟨k', h1, h2⟩
          rcases List.mem_cons.1 h2 with h2 | h2
          · cases h2; exact .inl ⟨h1, rfl⟩
          · exact .inr ⟨k', h1, h2⟩
        · rintro (⟨h1, rfl⟩ | ⟨k', h1, h2⟩)
          · exact ⟨i, h1, by simp⟩
          · exact ⟨k', h1, by simp [h2]⟩
      rw [e1, e2, ih hd.2]
      constructor
      · rintro (⟨h1, h2⟩ | h | ⟨h1, h2⟩)
        · exact .inr ⟨hne h1, .inl ⟨h1, h2⟩⟩
        · exact .inl h
        · exact .inr ⟨h1, .inr h2⟩
      · rintro (h | ⟨h1, h | h⟩)
        · exact .inr (.inl h)
        · exact .inl h
        · exact .inr (.inr ⟨h1, h⟩)

theorem pySetAll {d0 : List (BinPy × BinPy)} (hd0 : d0.Pairwise fun x y => ¬ Spec.SameName x.1 y.1) (pairs : List (BinPy × BinPy)) :
    let d := pairs.foldl (fun d x => pySet d x.1 x.2) d0
    (d.Pairwise fun x y => ¬ Spec.SameName x.1 y.1) ∧
    ∀ k v, Spec.SameName k k → ((∃ k', Spec.SameName k k' ∧ (k', v) ∈ d) ↔
      (∃ a b k', pairs = a ++ (k', v) :: b ∧ Spec.SameName k k' ∧ ∀ x ∈ b, ¬ Spec.SameName k x.1) ∨
      ((∀ x ∈ pairs, ¬ Spec.SameName k x.1) ∧ ∃ k', Spec.SameName k k' ∧ (k', v) ∈ d0)) := by
  induction pairs generalizing d0 with
  | nil =>
    refine ⟨hd0, fun k v hk => ?_⟩
    simp
  | cons y pairs ih =>
    obtain ⟨h1, h2⟩ := ih (pySet_once y.1 y.2 hd0)
    refine ⟨h1, fun k v hk => ?_⟩
    rw [List.foldl_cons, h2 k v hk, pySet_get hk hd0]
    constructor
    · rintro (⟨a, b, k', rfl, h3, h4⟩ | ⟨h3, ⟨h4, rfl⟩ | ⟨h4, h5⟩⟩)
      · exact .inl ⟨y :: a, b, k', rfl, h3, h4⟩
      · exact .inl ⟨[], pairs, y.1, rfl, h4, h3⟩
      · refine .inr ⟨fun x hx => ?_, h5⟩
        rcases List.mem_cons.1 hx with rfl | hx
        · exact h4
        · exact h3 x hx
    · rintro (⟨a, b, k', he, h3, h4⟩ | ⟨h3, h4⟩)
      · cases a with
        | nil =>
          rw [List.nil_append, List.cons.injEq] at he
          obtain ⟨rfl, rfl⟩ := he
          exact .inr ⟨h4, .inl ⟨h3, rfl⟩⟩
        | cons z a =>
          rw [List.cons_append, List.cons.injEq] at he
          obtain ⟨rfl, rfl⟩ := he
          exact .inl ⟨a, b, k', rfl, h3, h4⟩
      · exact .inr ⟨fun x hx => h3 x (by simp [hx]), .inr ⟨h3 y (by simp), h4⟩⟩

theorem lastValues (pairs : List (BinPy × BinPy)) : Spec.LastValues pairs (pairs.foldl (fun d x => pySet d x.1 x.2) []) := by
  obtain ⟨h1, h2⟩ := pySetAll (d0 := []) .nil pairs
  refine ⟨h1, fun k v hk => ?_⟩
  rw [h2 k v hk]
  simp

theorem hashablePy_iff (p : BinPy) : hashablePy p = true ↔ Spec.Hashable p := by
  unfold Spec.Hashable
  cases p <;> simp [hashablePy]

theorem augmentValues_ok {d0 d : List (BinPy × BinPy)} {items : List BinPy} (h : augmentValues d0 items = .ok d) :
    ∃ pairs, List.Forall₂ (fun item (x : BinPy × BinPy) => Spec.DataValue item x.1 x.2) items pairs ∧ d = pairs.foldl (fun d (x : BinPy × BinPy) => pySet d x.1 x.2) d0 := by
  induction items generalizing d0 with
  | nil => cases h; exact ⟨[], .nil, rfl⟩
  | cons v vs ih =>
    unfold augmentValues at h
    rcases hf : fieldsOf v with e | fields
    · rw [hf] at h; cases h
    rcases hx : firstValue fields with e | first
    · rw [hf] at h; simp only [bind, Except.bind, hx] at h; cases h
    rw [hf] at h
    simp only [bind, Except.bind, hx] at h
    split at h
    · rename_i hh
      obtain ⟨pairs, h1, h2⟩ := ih h
      refine ⟨(fieldD fields "name".toList (fieldD fields "mName".toList .none), fieldD fields "values".toList first) :: pairs, .cons ?_ h1, h2⟩
      refine ⟨fields, _, first, (fieldsOf_iff _ _).1 hf, (fieldD_iff (by decide) _ _).1 rfl, (index0_iff _ _).1 hx,
        (fieldD_either (by decide) (by decide) _ _).1 rfl, (fieldD_iff (by decide) _ _).1 rfl, (hashablePy_iff _).1 hh⟩
    · cases h

theorem augmentValues_total {items : List BinPy} {pairs : List (BinPy × BinPy)}
    (h : List.Forall₂ (fun item (x : BinPy × BinPy) => Spec.DataValue item x.1 x.2) items pairs) (d0 : List (BinPy × BinPy)) :
    augmentValues d0 items = .ok (pairs.foldl (fun d (x : BinPy × BinPy) => pySet d x.1 x.2) d0) := by
  induction h generalizing d0 with
  | nil => rfl
  | @cons item x items pairs hx hs ih =>
    obtain ⟨fields, old, first, h1, h2, h3, h4, h5, h6⟩ := hx
    unfold augmentValues firstValue
    rw [(fieldsOf_iff _ _).2 h1]
    simp only [bind, Except.bind]
    rw [(fieldD_iff (by decide) _ _).2 h2, (index0_iff _ _).2 h3]
    simp only
    rw [(fieldD_either (by decide) (by decide) _ _).2 h4, (fieldD_iff (by decide) _ _).2 h5, if_pos ((hashablePy_iff _).2 h6)]
    exact ih _

theorem byPath_total {V : Type} {d : Dict Nat V} {p : BinPy} {v : V} {n : Nat} (hp : Spec.IsPath p n) (hg : d.get? n = some v) : byPath d p = .ok v := by
  cases hp with
  | hashed k _ => simp only [byPath, hg]
  | int _ => simp only [byPath, Int.toNat_natCast, hg]; rw [if_neg (by omega)]

theorem spellAt_iff {env : BinEnv} {entries : List BinEntry} {h : Nat} {e : BinEntry} :
    (Dict.ofList ((entries.filter fun e => isType env e "SpellObject".toList).map fun e => (e.path, e))).get? h = some e ↔ Spec.SpellAt env entries h e := by
  rw [ofList_get?_iff]
  constructor
  · rintro ⟨a, b, he, hb⟩
    have hfil : ∃ l1 l2, entries = l1 ++ e :: l2 ∧ isType env e "SpellObject".toList = true ∧ e.path = h ∧ ∀ x ∈ l2, isType env x "SpellObject".toList = true → x.path ≠ h := by
      rw [List.map_eq_append_iff] at he
      obtain ⟨l1, l2, he, h1, h2⟩ := he
      rw [List.map_eq_cons_iff] at h2
      obtain ⟨e', l3, rfl, h3, h4⟩ := h2
      cases h3
      rw [List.filter_eq_append_iff] at he
      obtain ⟨m1, m2, rfl, -, h5⟩ := he
      rw [List.filter_eq_cons_iff] at h5
      obtain ⟨m3, m4, rfl, h6, h7, h8⟩ := h5
      refine ⟨m1 ++ m3, m4, by simp, h7, rfl, fun x hx ht => ?_⟩
      have : x ∈ l3 := by rw [← h8]; exact List.mem_filter.2 ⟨hx, ht⟩
      exact hb (x.path, x) (by rw [← h4]; exact List.mem_map.2 ⟨x, this, rfl⟩)
    obtain ⟨l1, l2, h1, h2, h3, h4⟩ := hfil
    exact ⟨l1, l2, h1, (isType_iff (by decide)).1 h2, h3, fun x hx ht => h4 x hx ((isType_iff (by decide)).2 ht)⟩
  · rintro ⟨a, b, rfl, ht, rfl, hb⟩
    refine ⟨(a.filter fun e => isType env e "SpellObject".toList).map fun e => (e.path, e),
      (b.filter fun e => isType env e "SpellObject".toList).map fun e => (e.path, e), ?_, ?_⟩
    · rw [List.filter_append, List.filter_cons, if_pos ((isType_iff (by decide)).2 ht)]; simp
    · intro x hx
      obtain ⟨y, hy, rfl⟩ := List.mem_map.1 hx
      rw [List.mem_filter] at hy
      exact hb y hy.1 ((isType_iff (by decide)).1 hy.2)

theorem byPath_ok {V : Type} {d : Dict Nat V} {p : BinPy} {v : V} (h : byPath d p = .ok v) : ∃ n, Spec.IsPath p n ∧ d.get? n = some v := by
  unfold byPath at h
  split at h
  · rename_i k n
    split at h
    · rename_i v' hv; cases h; exact ⟨n, .hashed k n, hv⟩
    · cases h
  · rename_i n
    split at h
    · rename_i v' hv
      split at h
      · cases h
      · cases h
        rename_i hn
        have : n = Int.ofNat n.toNat := (Int.toNat_of_nonneg (by omega)).symm
        rw [this]
        exact ⟨n.toNat, .int _, hv⟩
    · cases h
  · cases h
  · cases h
  · cases h

theorem augmentSpell_ok {env : BinEnv} {entries : List BinEntry} {root : BinPy} {vs : List (BinPy × BinPy)} {c : Ser}
    (h : augmentSpell env (Dict.ofList ((entries.filter fun e => isType env e "SpellObject".toList).map fun e => (e.path, e))) root = .ok (vs, c)) :
    ∃ h e spell sf l items pairs, Spec.IsPath root h ∧ Spec.SpellAt env entries h e ∧
        Spec.Gives e.fields "mSpell".toList spell ∧ Spec.IsObject spell sf ∧
        Spec.GivesEither sf "DataValues".toList "mDataValues".toList (.list []) l ∧ Spec.Items l items ∧
        List.Forall₂ (fun item (x : BinPy × BinPy) => Spec.DataValue item x.1 x.2) items pairs ∧ Spec.LastValues pairs vs ∧
        ((∃ f, FirstField sf (Spec.nameHash "mSpellCalculations".toList) f ∧ ser env f.value = .ok c) ∨
         (Spec.Lacks sf "mSpellCalculations".toList ∧ c = .obj [])) := by
  unfold augmentSpell at h
  generalize hD : Dict.ofList ((entries.filter fun e => isType env e "SpellObject".toList).map fun e => (e.path, e)) = D at h
  rcases hb : byPath D root with x | e
  · rw [hb] at h; cases h
  rw [hb] at h
  simp only [bind, Except.bind] at h
  rcases hf : fieldsOf (fieldD e.fields "mSpell".toList .none) with x | sf
  · rw [hf] at h; cases h
  rw [hf] at h
  simp only at h
  rcases hi : iterPy (fieldD sf "DataValues".toList (fieldD sf "mDataValues".toList (.list []))) with x | items
  · rw [hi] at h; cases h
  rw [hi] at h
  simp only at h
  rcases hv : augmentValues [] items with x | values
  · rw [hv] at h; cases h
  rw [hv] at h
  simp only at h
  obtain ⟨n, hn, hg⟩ := byPath_ok hb
  obtain ⟨pairs, hp, rfl⟩ := augmentValues_ok hv
  have hobj := (fieldsOf_iff _ _).1 hf
  have hgives : Spec.Gives e.fields "mSpell".toList (fieldD e.fields "mSpell".toList .none) := by
    rcases (fieldD_iff (fields := e.fields) (name := "mSpell".toList) (by decide) .none _).1 rfl with hh | ⟨-, hh⟩
    · exact hh
    · rw [hh] at hobj; cases hobj
  obtain ⟨g1, g2⟩ := C23_get sf (.str "mSpellCalculations".toList) _ (designates_name (by decide))
  have hlast : vs = pairs.foldl (fun d x => pySet d x.1 x.2) [] ∧
      ((∃ f, FirstField sf (Spec.nameHash "mSpellCalculations".toList) f ∧ ser env f.value = .ok c) ∨
         (Spec.Lacks sf "mSpellCalculations".toList ∧ c = .obj [])) := by
    rcases hc : getField sf (.str "mSpellCalculations".toList) with x | f
    · rw [hc] at h
      cases h
      refine ⟨rfl, .inr ⟨g2.1 ?_, rfl⟩⟩
      have hx : x = .key := by
        unfold getField at hc
        rw [(designates_name (name := "mSpellCalculations".toList) (by decide)).hash] at hc
        simp only [bind, Except.bind] at hc
        split at hc <;> cases hc
        rfl
      rw [hc, hx]
    · rw [hc] at h
      simp only at h
      rcases hs : ser env f.value with x | s
      · rw [hs] at h; cases h
      · rw [hs] at h
        cases h
        exact ⟨rfl, .inl ⟨f, (g1 f).1 hc, hs⟩⟩
  obtain ⟨rfl, hcalc⟩ := hlast
  rw [← hD] at hg
  exact ⟨n, e, _, sf, _, items, pairs, hn, spellAt_iff.1 hg, hgives, hobj, (fieldD_either (by decide) (by decide) _ _).1 rfl,
    (iterPy_iff _ _).1 hi, hp, lastValues pairs, hcalc⟩

theorem iconPath_convert (s : Str) : Spec.IconPath s (convertCdragonPath s) := by
  by_cases h : ∃ dir stem, IsTexture s dir stem
  · obtain ⟨dir, stem, h⟩ := h
    exact .inl ⟨dir, stem, h, C49_texture h⟩
  · have h' : ∀ dir stem, ¬ IsTexture s dir stem := fun dir stem hh => h ⟨dir, stem, hh⟩
    exact .inr ⟨h', C49_other h'⟩

theorem Spec.Shown.strOf {env : BinEnv} (repr : BinPy → Str) {p : BinPy} {s : Str} (h : Spec.Shown env p s) : Cdtb.strOf env repr p = s := by
  cases h with
  | known k h s hs => simp only [Cdtb.strOf, BinEnv.mk', BinHash.str, hs]
  | unknown k h hk hs =>
    simp only [Cdtb.strOf, BinEnv.mk', BinHash.str, hs]
    cases k <;> first | rfl | exact absurd rfl hk
  | unknownPath h hs => simp only [Cdtb.strOf, BinEnv.mk', BinHash.str, hs]; rfl
  | _ => rfl

theorem icon_convert {env : BinEnv} {repr : BinPy → Str} {fields : List BinField} {name : Str} (ha : Ascii name) :
    Spec.Icon env fields name (convertCdragonPath (strOf env repr (fieldD fields name .none))) := by
  intro p s hp hs
  rw [(fieldD_iff ha _ _).2 hp, hs.strOf repr]
  exact iconPath_convert s

theorem augmentOf_ok {lib : ArenaLib} {entries : List BinEntry} {fields : List BinField} {o : Option Augment}
    (h : augmentOf lib (Dict.ofList ((entries.filter fun e => isType lib.bin e "SpellObject".toList).map fun e => (e.path, e))) fields = .ok o) :
    (Spec.AugmentEnabled fields ∧ ∃ a, o = some a ∧ Spec.AugmentFrom lib.bin entries fields a) ∨ (¬ Spec.AugmentEnabled fields ∧ o = none) := by
  unfold augmentOf at h
  split at h
  · rename_i he
    cases h
    refine .inr ⟨fun hen => ?_, rfl⟩
    rw [Bool.not_eq_true', pyTruthy_iff] at he
    rcases (fieldD_iff (fields := fields) (name := "enabled".toList) (by decide) (.value (.bool true)) _).1 rfl with hh | ⟨-, hh⟩
    · exact hen _ hh he
    · rw [hh] at he; cases he
  · rename_i he
    rw [Bool.not_eq_true', Bool.eq_false_iff, Classical.not_not] at he
    refine .inl ⟨fun p hp hf => ?_, ?_⟩
    · have : fieldD fields "enabled".toList (.value (.bool true)) = p := (fieldD_iff (by decide) _ _).2 (.inl hp)
      rw [this] at he
      rw [(pyTruthy_iff p).2 hf] at he
      cases he
    · rcases hvc : augmentRoot lib.bin (Dict.ofList ((entries.filter fun e => isType lib.bin e "SpellObject".toList).map fun e => (e.path, e))) fields with e | vc
      · rw [hvc] at h; cases h
      · rw [hvc] at h
        cases h
        refine ⟨_, rfl, ?_⟩
        constructor
        iterate 5 exact (fieldD_iff (by decide) _ _).1 rfl
        · exact icon_convert (by decide)
        · exact icon_convert (by decide)
        · exact (fieldD_iff (by decide) _ _).1 rfl
        · refine ⟨_, (fieldD_iff (by decide) _ _).1 rfl, ?_⟩
          unfold augmentRoot at hvc
          simp only at hvc
          split at hvc
          · rename_i ht
            refine .inr ⟨fun hf => ?_, augmentSpell_ok hvc⟩
            rw [(pyTruthy_iff _).2 hf] at ht; cases ht
          · rename_i ht
            cases hvc
            rw [Bool.not_eq_true] at ht
            exact .inl ⟨(pyTruthy_iff _).1 ht, rfl, rfl⟩

open Classical in
theorem augmentsOf_ok {lib : ArenaLib} {entries es : List BinEntry} {as : List Augment}
    (h : augmentsOf lib (Dict.ofList ((entries.filter fun e => isType lib.bin e "SpellObject".toList).map fun e => (e.path, e))) es = .ok as) :
    List.Forall₂ (fun e a => Spec.AugmentFrom lib.bin entries e.fields a) (es.filter fun e => decide (Spec.AugmentEnabled e.fields)) as := by
  induction es generalizing as with
  | nil => cases h; exact .nil
  | cons e es ih =>
    unfold augmentsOf at h
    generalize hD : Dict.ofList ((entries.filter fun e => isType lib.bin e "SpellObject".toList).map fun e => (e.path, e)) = D at h ih
    rcases ha : augmentOf lib D e.fields with x | a
    · rw [ha] at h; cases h
    rw [ha] at h
    simp only [bind, Except.bind] at h
    rcases hs : augmentsOf lib D es with x | as'
    · rw [hs] at h; cases h
    rw [hs] at h
    cases h
    have ih' := ih hs
    rw [← hD] at ha
    rcases augmentOf_ok ha with ⟨he, a', rfl, hf⟩ | ⟨he, rfl⟩
    · rw [List.filter_cons, if_pos (decide_eq_true he)]
      exact .cons hf ih'
    · rw [List.filter_cons, if_neg (by simpa using he)]
      exact ih'

end Cdtb
