import Verif.Lemmas.TftBin
import Verif.Props.C66
/-! # Reading champions of TFT -/
namespace Cdtb
set_option autoImplicit false
open Py Spec

theorem getPath_ok {fields : List BinField} {keys : List BinKey} {hs : List Nat} (hd : List.Forall₂ Designates keys hs) (hne : keys ≠ []) {p : BinPy}
    (h : getPath fields keys = .ok p) : (∃ v, Reaches fields hs v ∧ Unwrapped v p) ∨ (NotReached fields hs ∧ p = .default) := by
  induction hd generalizing fields with
  | nil => exact absurd rfl hne
  | @cons k n ks ns hk hks ih =>
    obtain ⟨h1, h2⟩ := C23_get fields k n hk
    rcases hg : getField fields k with e | f
    · have : e = .key := by
        unfold getField at hg
        rw [hk.hash] at hg
        simp only [bind, Except.bind] at hg
        split at hg <;> cases hg
        rfl
      subst this
      rw [(C23_path fields k).2.2 ks hg] at h
      cases h
      exact .inr ⟨.here (h2.1 hg), rfl⟩
    · have hf : FirstField fields n f := (h1 f).1 hg
      cases hks with
      | nil =>
        rw [(C23_path fields k).1] at h
        exact .inl ⟨f.value, .last hf, (C23_getv fields k n hk f hf p).1 h⟩
      | @cons k' n' ks' ns' hk' hks' =>
        by_cases hv : ∃ t inner, f.value = .struct t inner ∨ f.value = .embedded t inner
        · obtain ⟨t, inner, hv⟩ := hv
          rw [(C23_path fields k).2.1 f k' ks' t inner hg hv] at h
          rcases ih (by simp) h with ⟨v, hr, hu⟩ | ⟨hn, hp⟩
          · rcases hv with hv | hv
            · exact .inl ⟨v, .struct hf hv hr, hu⟩
            · exact .inl ⟨v, .embedded hf hv hr, hu⟩
          · rcases hv with hv | hv
            · exact .inr ⟨.struct hf hv hn, hp⟩
            · exact .inr ⟨.embedded hf hv hn, hp⟩
        · exfalso
          have : f.value.item k' = .error .type := by
            unfold BinValue.item
            split
            · rename_i t inner he; exact absurd ⟨t, inner, .inl he⟩ hv
            · rename_i t inner he; exact absurd ⟨t, inner, .inr he⟩ hv
            · rfl
          simp only [getPath, hg, bind, Except.bind, walkPath, this] at h
          cases h

theorem locKey_at (l : List BinPair) (key : Str) : Spec.LocText l key (locKey l key) := by
  unfold locKey
  split
  · rename_i x hx
    obtain ⟨h1, a, b, rfl, h2⟩ := List.find?_eq_some_iff_append.1 hx
    refine .inl ⟨a, x, b, rfl, (isTextKey_iff _ _).1 h1, fun y hy he => ?_, rfl⟩
    have := h2 y hy
    rw [(isTextKey_iff key y.key).2 he] at this
    cases this
  · rename_i hx
    refine .inr ⟨fun y hy he => ?_, rfl⟩
    exact (List.find?_eq_none.1 hx y hy) ((isTextKey_iff _ _).2 he)

theorem abilityOf_ok {o : Option BinEntry} {r : List (BinPy × BinPy) × BinPy × BinPy} (h : abilityOf o = .ok r) : Spec.Ability o r.1 r.2.1 r.2.2 := by
  unfold abilityOf at h
  split at h
  · cases h; exact .inl ⟨rfl, rfl, rfl, rfl⟩
  rename_i e
  simp only [bind, Except.bind] at h
  split at h
  · cases h
  rename_i sf hsf
  split at h
  · cases h
  rename_i items hi
  split at h
  · cases h
  rename_i vars hv
  split at h
  · cases h
  rename_i k hk
  cases h
  refine .inr ⟨e, _, sf, _, items, rfl, gives_of_fieldD (by decide) rfl ?_, (fieldsOf_iff _ _).1 hsf, (fieldD_either (by decide) (by decide) _ _).1 rfl,
    (iterPy_iff _ _).1 hi, ?_, ?_⟩
  · intro hn; rw [hn] at hsf; cases hsf
  · refine ((mapM_eq_ok _ _ _).1 hv).imp fun a b hab => ?_
    unfold abilityVariable at hab
    simp only [bind, Except.bind] at hab
    split at hab
    · cases hab
    rename_i f hf
    cases hab
    exact ⟨f, (fieldsOf_iff _ _).1 hf, (fieldD_either (by decide) (by decide) _ _).1 rfl, (fieldD_either (by decide) (by decide) _ _).1 rfl⟩
  · have hd : List.Forall₂ Designates [.str "mClientData".toList, .str "mTooltipData".toList, .str "mLocKeys".toList]
        [Spec.nameHash "mClientData".toList, Spec.nameHash "mTooltipData".toList, Spec.nameHash "mLocKeys".toList] :=
      .cons (designates_name (by decide)) (.cons (designates_name (by decide)) (.cons (designates_name (by decide)) .nil))
    generalize hg : getPath sf [.str "mClientData".toList, .str "mTooltipData".toList, .str "mLocKeys".toList] = g at *
    unfold locKeys at hk
    rw [hg] at hk
    split at hk
    · cases hk
    · rename_i l
      cases hk
      rcases getPath_ok hd (by simp) hg with ⟨v, hr, hu⟩ | ⟨-, hp⟩
      · exact .inl ⟨v, l, hr, hu, locKey_at _ _, locKey_at _ _⟩
      · cases hp
    · rename_i p hp
      split at hk
      · cases hk
      rename_i ht
      cases hk
      refine .inr ⟨?_, rfl, rfl⟩
      rcases getPath_ok hd (by simp) hg with ⟨v, hr, hu⟩ | ⟨hn, -⟩
      · exact .inr ⟨v, p, hr, hu, (pyTruthy_iff _).1 (by simpa using ht)⟩
      · exact .inl hn

theorem basename_dir {dir base : Str} (hd : DirPrefix dir) (hb : '/' ∉ base) : basename (dir ++ base) = base := by
  unfold basename
  rw [psplit_dir hd hb]

theorem firstSpell_ok {items : List BinPy} {o : Option Nat} (h : firstSpell items = .ok o) :
    (∃ a k n b, items = a ++ .value (.hashed k n) :: b ∧ n ≠ 0 ∧ (∀ x ∈ a, ∃ k, x = .value (.hashed k 0)) ∧ o = some n) ∨
    ((∀ x ∈ items, ∃ k, x = .value (.hashed k 0)) ∧ o = none) := by
  induction items with
  | nil => cases h; exact .inr ⟨by simp, rfl⟩
  | cons x items ih =>
    unfold firstSpell at h
    simp only [bind, Except.bind] at h
    split at h
    · cases h
    rename_i n hn
    have hx : ∃ k, x = .value (.hashed k n) := by
      unfold pyHash at hn
      split at hn <;> cases hn
      exact ⟨_, rfl⟩
    obtain ⟨k, rfl⟩ := hx
    split at h
    · rename_i h0
      cases h
      exact .inl ⟨[], k, n, items, rfl, h0, by simp, rfl⟩
    · rename_i h0
      have h0 : n = 0 := by simpa using h0
      subst h0
      rcases ih h with ⟨a, k', n, b, rfl, h1, h2, h3⟩ | ⟨h1, h2⟩
      · refine .inl ⟨_ :: a, k', n, b, rfl, h1, ?_, h3⟩
        intro y hy
        rcases List.mem_cons.1 hy with rfl | hy
        · exact ⟨k, rfl⟩
        · exact h2 y hy
      · refine .inr ⟨?_, h2⟩
        intro y hy
        rcases List.mem_cons.1 hy with rfl | hy
        · exact ⟨k, rfl⟩
        · exact h1 y hy

/-- What `spellMatch` gives, and its test -/
theorem spellMatch_ok {record : List BinField} {o : Option SpellMatch} (h : spellMatch record = .ok o) :
    (o = none ∧ Spec.Lacks record "spells".toList ∧ Spec.Lacks record "spellNames".toList) ∨
    ∃ m test, o = some m ∧ Spec.SpellTest record test ∧ ∀ e b, m.test e = .ok b → (b = true ↔ test e) := by
  unfold spellMatch at h
  split at h
  · rename_i p hp
    simp only [bind, Except.bind] at h
    split at h
    · cases h
    rename_i items hi
    split at h
    · cases h
    rename_i n hn
    cases h
    refine .inr ?_
    rcases firstSpell_ok hn with ⟨a, k, n, b, h1, h2, h3, rfl⟩ | ⟨h1, rfl⟩
    · refine ⟨_, _, rfl, .inl ⟨p, items, (fieldV_some (by decide) _).1 hp, (iterPy_iff _ _).1 hi, .inl ⟨a, k, n, b, h1, h2, h3, rfl⟩⟩, ?_⟩
      intro e c hc
      cases hc
      simp [eq_comm]
    · refine ⟨_, _, rfl, .inl ⟨p, items, (fieldV_some (by decide) _).1 hp, (iterPy_iff _ _).1 hi, .inr ⟨h1, rfl⟩⟩, ?_⟩
      intro e c hc
      cases hc
      simp
  · rename_i hn
    split at h
    · rename_i p hp
      simp only [bind, Except.bind] at h
      split at h
      · cases h
      rename_i x hx
      split at h
      · cases h
      rename_i n hnm
      cases h
      have hs : ∃ s, x = .value (.str s) ∧ n = lower (basename s) := by
        unfold scriptName at hnm
        split at hnm <;> cases hnm
        exact ⟨_, rfl, rfl⟩
      obtain ⟨s, rfl, rfl⟩ := hs
      obtain ⟨dir, base, rfl, hd, hb⟩ := exists_dirPrefix s
      refine .inr ⟨_, _, rfl, .inr ⟨(fieldV_none (by decide)).1 hn, p, dir ++ base, dir, base, (fieldV_some (by decide) _).1 hp, (index0_iff _ _).1 hx, rfl, hd, hb, rfl⟩, ?_⟩
      intro e b he
      simp only [SpellMatch.test, bind, Except.bind] at he
      split at he
      · cases he
      rename_i t ht
      cases he
      have hs : ∃ u, fieldD e.fields "mScriptName".toList (.value (.str [])) = .value (.str u) ∧ t = lower u := by
        generalize fieldD e.fields "mScriptName".toList (.value (.str [])) = q at ht
        unfold pyLower at ht
        split at ht <;> cases ht
        exact ⟨_, rfl, rfl⟩
      obtain ⟨u, hu, rfl⟩ := hs
      rw [basename_dir hd hb, decide_eq_true_iff]
      constructor
      · intro h
        exact ⟨u, (fieldD_iff (by decide) _ _).1 hu, h⟩
      · rintro ⟨t, ht, hl⟩
        rw [← fieldD_iff (by decide), hu] at ht
        cases ht
        exact hl
    · rename_i hn'
      cases h
      exact .inl ⟨rfl, (fieldV_none (by decide)).1 hn, (fieldV_none (by decide)).1 hn'⟩

theorem findSpell_ok {lib : TftLib} {m : SpellMatch} {test : BinEntry → Prop} (ht : ∀ e b, m.test e = .ok b → (b = true ↔ test e)) {entries : List BinEntry}
    {o : Option BinEntry} (h : findSpell lib m entries = .ok o) : Spec.FirstSpell lib.bin entries test o := by
  induction entries with
  | nil => cases h; exact .inr ⟨by simp, rfl⟩
  | cons e es ih =>
    unfold findSpell at h
    have cont : (Spec.HasType lib.bin e "SpellObject".toList → ¬ test e) → findSpell lib m es = .ok o → Spec.FirstSpell lib.bin (e :: es) test o := by
      intro hn h
      rcases ih h with ⟨a, x, b, rfl, h1, h2, h3, h4⟩ | ⟨h1, h2⟩
      · refine .inl ⟨e :: a, x, b, rfl, h1, h2, ?_, h4⟩
        intro y hy
        rcases List.mem_cons.1 hy with rfl | hy
        · exact hn
        · exact h3 y hy
      · refine .inr ⟨?_, h2⟩
        intro y hy
        rcases List.mem_cons.1 hy with rfl | hy
        · exact hn
        · exact h1 y hy
    split at h
    · rename_i hty
      simp only [bind, Except.bind] at h
      split at h
      · cases h
      rename_i b hb
      split at h
      · rename_i hb'
        cases h
        exact .inl ⟨[], e, es, rfl, (isType_iff (by decide)).1 hty, (ht e b hb).1 hb', by simp, rfl⟩
      · rename_i hb'
        exact cont (fun _ hte => hb' ((ht e b hb).2 hte)) h
    · rename_i hty
      refine cont (fun hty' => absurd ((isType_iff (by decide)).2 hty') hty) h

theorem isFieldName_iff {env : BinEnv} {f : BinField} {name : Str} (ha : Ascii name) : isFieldName env f name = true ↔ Spec.FieldNamed env f name := by
  unfold isFieldName Spec.FieldNamed BinEnv.mk' BinHash.eq BinEnv.computeHash
  rcases h : (env.known .field).get? f.name with _ | s
  · simp only [C20_fnv name ha, bind, Except.bind, pure, Except.pure]
    simp [Spec.nameHash]
  · simp

theorem picks_filter_map {α β : Type} {P : α → Prop} {test : α → Bool} (ht : ∀ x, test x = true ↔ P x) (g : α → β) (l : List α) :
    Spec.Picks (fun x y => P x ∧ y = g x) l ((l.filter test).map g) := by
  induction l with
  | nil => exact .nil
  | cons x l ih =>
    by_cases h : test x = true
    · rw [List.filter_cons_of_pos h]
      exact .keep ⟨(ht x).1 h, rfl⟩ ih
    · rw [List.filter_cons_of_neg h]
      exact .skip (fun y hy => h ((ht x).2 hy.1)) ih

theorem champTraits_ok {lib : TftLib} {items paths : List BinPy} (h : champTraits lib items = .ok paths) :
    ∃ parts, List.Forall₂ (Spec.LinkedTrait lib.bin) items parts ∧ paths = parts.flatten := by
  induction items generalizing paths with
  | nil => cases h; exact ⟨[], .nil, rfl⟩
  | cons x items ih =>
    have key : ∀ part l, Spec.LinkedTrait lib.bin x part → champTraits lib items = .ok l → paths = part ++ l →
        ∃ parts, List.Forall₂ (Spec.LinkedTrait lib.bin) (x :: items) parts ∧ paths = parts.flatten := by
      rintro part l hp hl rfl
      obtain ⟨parts, h1, rfl⟩ := ih hl
      exact ⟨part :: parts, .cons hp h1, rfl⟩
    unfold champTraits at h
    split at h
    · rename_i heq; cases heq
    · rename_i t fields ps heq
      cases heq
      simp only [bind, Except.bind] at h
      split at h
      · cases h
      rename_i l hl
      cases h
      exact key _ l (.inl ⟨t, fields, rfl, picks_filter_map (fun f => isFieldName_iff (by decide)) _ _⟩) hl rfl
    · rename_i p ps _ heq
      cases heq
      simp only [bind, Except.bind] at h
      split at h
      · cases h
      rename_i n hn
      split at h
      · cases h
      rename_i l hl
      cases h
      have hx : ∃ k, x = .value (.hashed k n) := by
        unfold pyHash at hn
        split at hn <;> cases hn
        exact ⟨_, rfl⟩
      obtain ⟨k, rfl⟩ := hx
      exact key _ l (.inr ⟨k, n, rfl, rfl⟩) hl rfl

theorem champCost_ok {champ record : List BinField} {cost : BinPy} (h : champCost champ record = .ok cost) : Spec.Cost champ record cost := by
  unfold champCost at h
  simp only at h
  split at h
  · rename_i hn
    rw [pyNone_iff] at hn
    generalize hr : fieldD champ "mRarity".toList (.value (.int 0)) = r at h
    split at h
    · cases h
      exact .inr ⟨(fieldD_iff (by decide) _ _).1 hn, _, (fieldD_iff (by decide) _ _).1 hr, rfl⟩
    · cases h
  · rename_i hn
    cases h
    rw [pyNone_iff] at hn
    exact .inl ⟨hn, gives_of_fieldD (by decide) rfl hn⟩

theorem statOf_ok {record : List BinField} {name old : Str} (ha : Ascii name) (hb : Ascii old) {default p : BinPy} (h : statOf record name old default = .ok p) :
    Spec.Stat record name old default p := by
  unfold statOf at h
  simp only at h
  split at h
  · rename_i hn
    cases h
    rw [pyNone_iff] at hn
    exact .inl ⟨(fieldD_iff ha _ _).1 hn, (fieldD_iff hb _ _).1 rfl⟩
  · rename_i hn
    rw [pyNone_iff] at hn
    simp only [bind, Except.bind] at h
    split at h
    · cases h
    rename_i f hf
    cases h
    exact .inr ⟨_, f, gives_of_fieldD ha rfl hn, (fieldsOf_iff _ _).1 hf, (fieldD_iff (by decide) _ _).1 rfl⟩

theorem champMana_ok {record : List BinField} {p : BinPy} (h : champMana record = .ok p) : Spec.Mana record p := by
  unfold champMana at h
  simp only at h
  split at h
  · rename_i hn
    cases h
    rw [pyNone_iff] at hn
    exact .inl ⟨(fieldD_iff (by decide) _ _).1 hn, rfl⟩
  · rename_i hn
    rw [pyNone_iff] at hn
    simp only [bind, Except.bind] at h
    split at h
    · cases h
    rename_i f hf
    refine .inr ⟨_, f, gives_of_fieldD (by decide) rfl hn, (fieldsOf_iff _ _).1 hf, ?_⟩
    rcases hv : fieldVH f 0x726ee5cd with _ | y
    · rw [hv] at h
      cases h
      exact .inr ⟨.inl (fieldVH_none.1 hv), (fieldD_iff (by decide) _ _).1 rfl⟩
    · rw [hv, Option.getD_some] at h
      split at h
      · cases h
        exact .inr ⟨.inr ((fieldVH_some _).1 hv), (fieldD_iff (by decide) _ _).1 rfl⟩
      · split at h
        · cases h
        rename_i m hm
        cases h
        exact .inl ⟨y, m, (fieldVH_some _).1 hv, (fieldsOf_iff _ _).1 hm, (fieldD_iff (by decide) _ _).1 rfl⟩

theorem champStats_ok {lib : TftLib} {record : List BinField} {s : ChampStats} (h : champStats lib record = .ok s) : Spec.StatsFrom lib record s := by
  unfold champStats at h
  simp only [bind, Except.bind] at h
  split at h
  · cases h
  rename_i mana h1
  split at h
  · cases h
  rename_i hp h2
  split at h
  · cases h
  rename_i damage h3
  split at h
  · cases h
  rename_i armor h4
  split at h
  · cases h
  rename_i mr h5
  split at h
  · cases h
  rename_i as h6
  split at h
  · cases h
  rename_i r h7
  split at h
  · cases h
  rename_i range h8
  cases h
  refine ⟨statOf_ok (by decide) (by decide) h2, champMana_ok h1, (fieldD_iff (by decide) _ _).1 rfl, statOf_ok (by decide) (by decide) h3, statOf_ok (by decide) (by decide) h4,
    statOf_ok (by decide) (by decide) h5, (fieldD_iff (by decide) _ _).1 rfl, (fieldD_iff (by decide) _ _).1 rfl, statOf_ok (by decide) (by decide) h6,
    r, statOf_ok (by decide) (by decide) h7, ?_⟩
  unfold rangeOf at h8
  split at h8
  · cases h8
    exact .inl ⟨_, _, rfl, rfl, by omega, by omega⟩
  · cases h8
    exact .inr ⟨_, rfl, rfl⟩
  · cases h8

theorem champRole_ok {lib : TftLib} {entries : List BinEntry} {record : List BinField} {role : BinPy}
    (h : champRole (entriesOf lib entries "TFTCharacterRoleData".toList) record = .ok role) : Spec.Role lib.bin entries record role := by
  unfold champRole at h
  simp only at h
  split at h
  · rename_i hn
    cases h
    rw [pyNone_iff] at hn
    exact .inl ⟨(fieldD_iff (by decide) _ _).1 hn, rfl⟩
  · rename_i hn
    rw [pyNone_iff] at hn
    simp only [bind, Except.bind] at h
    split at h
    · cases h
    rename_i e he
    cases h
    obtain ⟨n, hp, hg⟩ := byPath_ok he
    refine .inr ⟨_, e, gives_of_fieldD (by decide) rfl hn, ⟨n, hp, ?_⟩, (fieldD_iff (by decide) _ _).1 rfl⟩
    exact (entryAt_iff (isTypeOf lib.bin (by decide))).1 hg

theorem strOr_ok {lib : TftLib} {fields : List BinField} {name other : Str} (ha : Ascii name) (hb : Ascii other) :
    Spec.TextOrField lib.bin fields name other (strOr lib (fieldD fields name .none) (fieldD fields other .none)) := by
  intro q s hq hs
  rw [(fieldD_iff ha _ _).2 hq]
  have : lib.str q = s := hs.strOf lib.repr
  unfold strOr
  rw [this]
  by_cases h : s = []
  · subst h
    exact .inr ⟨rfl, (fieldD_iff hb _ _).1 rfl⟩
  · refine .inl ⟨h, ?_⟩
    rw [if_neg (by simpa using h)]

theorem pyOr_ok {fields : List BinField} {name : Str} (ha : Ascii name) (other : BinPy) : Spec.FieldOrElse fields name other (pyOr (fieldD fields name .none) other) := by
  refine ⟨_, (fieldD_iff ha _ _).1 rfl, ?_⟩
  unfold pyOr
  generalize fieldD fields name .none = q
  by_cases h : pyTruthy q = true
  · refine .inl ⟨fun hf => ?_, if_pos h⟩
    rw [(pyTruthy_iff q).2 hf] at h; cases h
  · exact .inr ⟨(pyTruthy_iff q).1 (by simpa using h), if_neg h⟩

theorem champOf_ok {lib : TftLib} {entries : List BinEntry} {traits : Dict Nat TraitData} {champ : List BinField} {file : List BinEntry} {record : List BinField}
    {o : Option ChampData} (h : champOf lib traits (entriesOf lib entries "TFTCharacterRoleData".toList) champ file record = .ok o) :
    (Spec.Lacks record "spells".toList ∧ Spec.Lacks record "spellNames".toList ∧ o = none) ∨
    ∃ c, Spec.ChampFrom lib entries traits champ file record c ∧ o = some c := by
  unfold champOf at h
  simp only [bind, Except.bind] at h
  split at h
  · cases h
  rename_i m hm
  rcases spellMatch_ok hm with ⟨rfl, h1, h2⟩ | ⟨m, test, rfl, htest, hm'⟩
  · cases h
    exact .inl ⟨h1, h2, rfl⟩
  simp only at h
  split at h
  · cases h
  rename_i linked hl
  split at h
  · cases h
  rename_i paths hp
  split at h
  · cases h
  rename_i spell hs
  split at h
  · cases h
  rename_i ability ha
  split at h
  · cases h
  rename_i cost hc
  split at h
  · cases h
  rename_i role hr
  split at h
  · cases h
  rename_i stats hst
  cases h
  obtain ⟨parts, hpa, rfl⟩ := champTraits_ok hp
  refine .inr ⟨_, ?_, rfl⟩
  refine ⟨(fieldD_iff (by decide) _ _).1 rfl, (fieldD_iff (by decide) _ _).1 rfl, (fieldD_iff (by decide) _ _).1 rfl, champCost_ok hc, strOr_ok (by decide) (by decide),
    ?_, ?_, ?_, champRole_ok hr, champStats_ok hst, ?_, strOr_ok (by decide) (by decide)⟩
  · intro p hp
    rw [(fieldD_iff (by decide) _ _).2 hp]
    exact textOf_str lib p
  · intro p hp
    rw [(fieldD_iff (by decide) _ _).2 hp]
    exact textOf_str lib p
  · refine ⟨_, linked, parts, (fieldD_iff (by decide) _ _).1 rfl, (iterPy_iff _ _).1 hl, hpa, ?_⟩
    rw [List.map_filterMap]
    refine picks_filterMap (fun p name => ?_) _
    rw [Option.map_eq_some_iff]
    simp only [lookupPath_iff]
    constructor
    · rintro ⟨t, ⟨n, h1, h2⟩, rfl⟩; exact ⟨n, t, h1, h2, rfl⟩
    · rintro ⟨n, t, h1, h2, rfl⟩; exact ⟨t, ⟨n, h1, h2⟩, rfl⟩
  · exact ⟨test, spell, ability.2.1, ability.2.2, htest, findSpell_ok hm' hs, abilityOf_ok ha, pyOr_ok (by decide) _, pyOr_ok (by decide) _⟩

theorem champFile_iff {fs : FS} {input name path : Str} : champFile fs input name = some path ↔ Spec.ChampFile fs input name path := by
  unfold champFile Spec.ChampFile
  simp only
  generalize pjoin (pjoin input "characters".toList) (name ++ ".cdtb.bin".toList) = own
  generalize pjoin (pjoin (pjoin input "data/characters".toList) name) (name ++ ".bin".toList) = common
  rcases h1 : fs own with _ | n <;> rcases h2 : fs common with _ | n' <;> simp [eq_comm]

theorem recordOf (lib : TftLib) (entries : List BinEntry) :
    Spec.RecordOf lib.bin entries (((entries.find? fun e => isType lib.bin e "TFTCharacterRecord".toList).map (·.fields)).getD []) := by
  rcases h : entries.find? fun e => isType lib.bin e "TFTCharacterRecord".toList with _ | e
  · refine .inr ⟨fun x hx ht => ?_, rfl⟩
    exact List.find?_eq_none.1 h x hx ((isType_iff (by decide)).2 ht)
  · obtain ⟨h1, a, b, rfl, h2⟩ := List.find?_eq_some_iff_append.1 h
    refine .inl ⟨a, e, b, rfl, (isType_iff (by decide)).1 h1, fun x hx ht => ?_, rfl⟩
    have := h2 x hx
    rw [(isType_iff (by decide)).2 ht] at this
    cases this

theorem champEntry_ok {lib : TftLib} {fs : FS} {input : Str} {entries : List BinEntry} {traits : Dict Nat TraitData} {champ : List BinField} {o : Option (Str × ChampData)}
    (h : champEntry lib fs input traits (entriesOf lib entries "TFTCharacterRoleData".toList) champ = .ok o) : Spec.ShopEntry lib fs input entries traits champ o := by
  unfold champEntry at h
  simp only [bind, Except.bind] at h
  split at h
  · cases h
  rename_i name hn
  have hs : ∃ s, Spec.Gives champ "mName".toList (.value (.str s)) ∧ name = lower s := by
    generalize hq : fieldD champ "mName".toList .none = q at hn
    unfold pyLower at hn
    split at hn <;> cases hn
    exact ⟨_, gives_of_fieldD (by decide) hq (by simp), rfl⟩
  obtain ⟨s, hs, rfl⟩ := hs
  refine ⟨s, hs, ?_⟩
  split at h
  · rename_i ht
    cases h
    exact .inl ⟨ht, rfl⟩
  rename_i ht
  split at h
  · rename_i hf
    cases h
    refine .inr (.inl ⟨ht, fun path hp => ?_, rfl⟩)
    rw [← champFile_iff, hf] at hp; cases hp
  rename_i path hf
  split at h
  · cases h
  rename_i data hd
  split at h
  · cases h
  rename_i bin hb
  split at h
  · cases h
  rename_i c hc
  cases h
  refine .inr (.inr ⟨ht, path, data, bin, _, champFile_iff.1 hf, readFile_iff.1 hd, hb, recordOf lib _, ?_⟩)
  rcases champOf_ok hc with ⟨h1, h2, rfl⟩ | ⟨c, h1, rfl⟩
  · exact .inl ⟨h1, h2, rfl⟩
  · exact .inr ⟨c, h1, rfl⟩

theorem champsGo_ok {lib : TftLib} {fs : FS} {input : Str} {entries : List BinEntry} {traits : Dict Nat TraitData} {d0 d : Dict Str ChampData} {es : List BinEntry}
    (h : champsGo lib fs input traits (entriesOf lib entries "TFTCharacterRoleData".toList) d0 es = .ok d) :
    ∃ results, List.Forall₂ (fun e o => Spec.ShopEntry lib fs input entries traits e.fields o) es results ∧
      d = (results.filterMap id).foldl (fun d x => d.set x.1 x.2) d0 := by
  induction es generalizing d0 with
  | nil => cases h; exact ⟨[], .nil, rfl⟩
  | cons e es ih =>
    unfold champsGo at h
    simp only [bind, Except.bind] at h
    split at h
    · cases h
    rename_i o ho
    obtain ⟨results, h1, h2⟩ := ih h
    refine ⟨o :: results, .cons (champEntry_ok ho) h1, ?_⟩
    rcases o with _ | ⟨n, c⟩
    · exact h2
    · exact h2

theorem optText_ok {fields : List BinField} {name : Str} (ha : Ascii name) {o : Option Str} (h : optText (fieldD fields name .none) = .ok o) : Spec.TextField fields name o := by
  generalize hq : fieldD fields name .none = q at h
  unfold optText at h
  split at h <;> cases h
  · exact .inl ⟨_, rfl, gives_of_fieldD ha hq (by simp)⟩
  · exact .inr ⟨rfl, (fieldD_iff ha _ _).1 hq⟩

theorem linkField_ok {fields : List BinField} {name : Str} (ha : Ascii name) {items : List BinPy} {l : List Nat} (h : iterPy (fieldD fields name (.list [])) = .ok items)
    (hl : items.mapM pyHash = .ok l) : Spec.LinkField fields name l := by
  refine ⟨_, items, (fieldD_iff ha _ _).1 rfl, (iterPy_iff _ _).1 h, ((mapM_eq_ok _ _ _).1 hl).imp fun i n hi => ?_⟩
  unfold pyHash at hi
  split at hi <;> cases hi
  exact ⟨_, rfl⟩

theorem rawItem_ok {lib : TftLib} {e : BinEntry} {name : Str} {i : RawItem ItemData} (hn : Spec.Gives e.fields "mName".toList (.value (.str name)))
    (h : rawItem lib e name = .ok i) : Spec.ItemFrom lib.bin e i := by
  unfold rawItem at h
  simp only [bind, Except.bind] at h
  split at h
  · cases h
  rename_i id h1
  split at h
  · cases h
  rename_i dn h2
  split at h
  · cases h
  rename_i desc h3
  split at h
  · cases h
  rename_i c hc
  split at h
  · cases h
  rename_i comp h4
  split at h
  · cases h
  rename_i a ha
  split at h
  · cases h
  rename_i assoc h5
  split at h
  · cases h
  rename_i ic hic
  split at h
  · cases h
  rename_i inc h6
  split at h
  · cases h
  rename_i eff h7
  split at h
  · cases h
  rename_i tags h8
  cases h
  refine ⟨rfl, ⟨name, rfl, hn⟩, ?_, optText_ok (by decide) h2, optText_ok (by decide) h3, linkField_ok (by decide) hc h4, linkField_ok (by decide) ha h5,
    linkField_ok (by decide) hic h6, ?_, (fieldD_iff (by decide) _ _).1 rfl, (fieldD_iff (by decide) _ _).1 rfl, collectEffects_ok h7,
    ⟨_, tags, (fieldD_iff (by decide) _ _).1 rfl, (iterPy_iff _ _).1 h8, ?_⟩⟩
  · generalize hq : fieldD e.fields "mId".toList .none = q at h1
    unfold optInt at h1
    split at h1 <;> cases h1
    · exact .inl ⟨_, rfl, gives_of_fieldD (by decide) hq (by simp)⟩
    · exact .inr ⟨rfl, (fieldD_iff (by decide) _ _).1 hq⟩
  · intro p hp
    rw [(fieldD_iff (by decide) _ _).2 hp]
    exact textOf_str lib p
  · rw [List.forall₂_map_right_iff, List.forall₂_same]
    exact fun x _ => textOf_str lib x

open Classical in
theorem rawItems_ok {lib : TftLib} {es : List BinEntry} (hes : ∀ e ∈ es, Spec.HasType lib.bin e "TftItemData".toList) {r : List (RawItem ItemData)}
    (h : rawItems lib es = .ok r) : List.Forall₂ (Spec.ItemFrom lib.bin) (es.filter fun e => decide (∃ name, Spec.IsItem lib.bin e name)) r ∧
      ∀ e ∈ es, ∃ name, Spec.Gives e.fields "mName".toList (.value (.str name)) := by
  induction es generalizing r with
  | nil => cases h; exact ⟨.nil, by simp⟩
  | cons e es ih =>
    have hes' : ∀ e ∈ es, Spec.HasType lib.bin e "TftItemData".toList := fun e he => hes e (by simp [he])
    unfold rawItems at h
    generalize hq : fieldD e.fields "mName".toList .none = q at h
    split at h
    · rename_i name
      have hn := gives_of_fieldD (by decide) hq (by simp)
      have huniq : ∀ n, Spec.Gives e.fields "mName".toList (.value (.str n)) → n = name := by
        intro n hg
        rw [fieldD_of_gives (by decide) hg] at hq
        cases hq; rfl
      split at h
      · rename_i hs
        obtain ⟨h1, h2⟩ := ih hes' h
        rw [List.filter_cons_of_neg]
        · refine ⟨h1, fun x hx => ?_⟩
          rcases List.mem_cons.1 hx with rfl | hx
          · exact ⟨name, hn⟩
          · exact h2 x hx
        · rw [decide_eq_true_iff]
          rintro ⟨n, -, hg, h3, h4⟩
          have := huniq n hg
          subst this
          rw [Bool.or_eq_true, containsSub_infix, decide_eq_true_iff] at hs
          rcases hs with hs | hs
          · exact h3 hs
          · exact h4 hs
      · rename_i hs
        simp only [bind, Except.bind] at h
        split at h
        · cases h
        rename_i i hi
        split at h
        · cases h
        rename_i r' hr'
        cases h
        obtain ⟨h1, h2⟩ := ih hes' hr'
        rw [List.filter_cons_of_pos]
        · refine ⟨.cons (rawItem_ok hn hi) h1, fun x hx => ?_⟩
          rcases List.mem_cons.1 hx with rfl | hx
          · exact ⟨name, hn⟩
          · exact h2 x hx
        · rw [decide_eq_true_iff]
          rw [Bool.or_eq_true, containsSub_infix, decide_eq_true_iff, not_or] at hs
          exact ⟨name, hes e (by simp), hn, hs.1, hs.2⟩
    · cases h

end Cdtb
