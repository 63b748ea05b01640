import Verif.Props.C73
/-!
# C73: when the data of TFT can be read

Where the code copies values of any type and the model only those that the game uses, the model fails; these theorems only say when it succeeds.
-/
namespace Cdtb
set_option autoImplicit false
open Py Spec

/-- The computation gives a result. -/
def Succeeds {α : Type} (x : Res α) : Prop := ∃ r, x = .ok r

theorem Succeeds.bind {α β : Type} {x : Res α} {f : α → Res β} (hx : Succeeds x) (hf : ∀ r, x = .ok r → Succeeds (f r)) : Succeeds (x >>= f) := by
  obtain ⟨r, hr⟩ := hx
  obtain ⟨s, hs⟩ := hf r hr
  exact ⟨s, by rw [hr]; exact hs⟩

theorem Succeeds.ok {α : Type} (r : α) : Succeeds (.ok r : Res α) := ⟨r, rfl⟩

theorem Succeeds.mapM {α β : Type} {f : α → Res β} {l : List α} (h : ∀ x ∈ l, Succeeds (f x)) : Succeeds (l.mapM f) := by
  induction l with
  | nil => exact ⟨[], by rw [List.mapM_nil]; rfl⟩
  | cons x l ih =>
    obtain ⟨y, hy⟩ := h x (by simp)
    obtain ⟨ys, hys⟩ := ih fun z hz => h z (by simp [hz])
    exact ⟨y :: ys, (mapM_eq_ok _ _ _).2 (.cons hy ((mapM_eq_ok _ _ _).1 hys))⟩

/-! ## Traits -/

theorem collectEffects_total {lib : TftLib} {fields : List BinField} {d : Dict Str BinPy} (h : Spec.Effects lib.bin fields d) : Succeeds (collectEffects lib fields) := by
  unfold collectEffects
  rcases h with ⟨p, items, pairs, h1, h2, h3, -⟩ | ⟨h0, p, c, l, pairs, h1, h2, h3, h4, -⟩ | ⟨h0, h1, -⟩
  · rw [(fieldV_some (by decide) _).2 h1]
    simp only
    rw [(iterPy_iff _ _).2 h2]
    refine Succeeds.bind (.ok items) fun _ hr => ?_
    cases hr
    refine Succeeds.bind (.mapM fun x hx => ?_) fun r _ => .ok _
    obtain ⟨y, -, f, n, hf, -⟩ := forall₂_mem_left h3 hx
    unfold effectAmount
    rw [(fieldsOf_iff _ _).2 hf]
    exact ⟨_, rfl⟩
  · rw [(fieldV_none (by decide)).2 h0, (fieldV_some (by decide) _).2 h1]
    simp only
    rw [(fieldsOf_iff _ _).2 h2]
    have hl : pyItems ((fieldVH c 0xdf085b93).getD (.dict [])) = .ok l := by
      rcases h3 with h3 | ⟨h3, rfl⟩
      · rw [(fieldVH_some _).2 h3]; rfl
      · rw [fieldVH_none.2 h3]; rfl
    refine Succeeds.bind (.ok c) fun c' hc => ?_
    cases hc
    rw [hl]
    refine Succeeds.bind (.ok l) fun l' hl' => ?_
    cases hl'
    refine Succeeds.bind (.mapM fun x hx => ?_) fun r _ => .ok _
    obtain ⟨y, -, f, hf, -⟩ := forall₂_mem_left h4 hx
    unfold effectConstant
    rw [(fieldsOf_iff _ _).2 hf]
    exact ⟨_, rfl⟩
  · rw [(fieldV_none (by decide)).2 h0, (fieldV_none (by decide)).2 h1]
    exact ⟨_, rfl⟩

theorem innateEffects_total {lib : TftLib} {items : List BinPy} (h : ∀ i ∈ items, ∃ f d, Spec.IsObject i f ∧ Spec.Effects lib.bin f d) (d0 : Dict Str BinPy) :
    Succeeds (innateEffects lib d0 items) := by
  induction items generalizing d0 with
  | nil => exact ⟨_, rfl⟩
  | cons p ps ih =>
    obtain ⟨f, d, hf, he⟩ := h p (by simp)
    unfold innateEffects
    rw [(fieldsOf_iff _ _).2 hf]
    exact Succeeds.bind (.ok f) fun _ hr => by
      cases hr
      exact Succeeds.bind (collectEffects_total he) fun e _ => ih (fun i hi => h i (by simp [hi])) _

theorem traitOf_total {lib : TftLib} {fields : List BinField} {t : TraitData} (h : Spec.TraitFrom lib.bin fields t) : Succeeds (traitOf lib fields) := by
  obtain ⟨l, innate, ds, base, m, sets, items, h1, h2, h3, -, h4, h5, h6⟩ := h.levels
  unfold traitOf
  rw [(fieldD_iff (by decide) _ _).2 h1, (iterPy_iff _ _).2 h2]
  have hs : traitSets fields = (m, sets) := by
    unfold traitSets
    rcases h4 with ⟨rfl, h4⟩ | ⟨rfl, h4, h5⟩
    · rw [(fieldV_some (by decide) _).2 h4]
    · rw [(fieldV_none (by decide)).2 h4]
      simp only
      rw [(fieldD_iff (by decide) _ _).2 h5]
  rw [hs]
  refine Succeeds.bind (.ok innate) fun _ hr => ?_
  cases hr
  refine Succeeds.bind (innateEffects_total (fun i hi => ?_) _) fun b _ => ?_
  · obtain ⟨d, -, f, hf, he⟩ := forall₂_mem_left h3 hi
    exact ⟨f, d, hf, he⟩
  simp only
  rw [(iterPy_iff _ _).2 h5]
  refine Succeeds.bind (.ok items) fun _ hr => ?_
  cases hr
  refine Succeeds.bind (.mapM fun x hx => ?_) fun r _ => .ok _
  obtain ⟨y, -, f, max, e, hf, -, -, -, -, he, -⟩ := forall₂_mem_left h6 hx
  unfold traitEffect
  rw [(fieldsOf_iff _ _).2 hf]
  exact Succeeds.bind (.ok f) fun _ hr => by
    cases hr
    exact Succeeds.bind (collectEffects_total he) fun e _ => .ok _

/-- Traits can be read when each one has a name, and is a template or has readable effects. -/
theorem C73_traits_succeed (lib : TftLib) (entries : List BinEntry)
    (h : ∀ e ∈ entries, Spec.HasType lib.bin e "TftTraitData".toList → ∃ s, Spec.Gives e.fields "mName".toList (.value (.str s)) ∧
      ("Template".toList <:+: s ∨ ∃ t, Spec.TraitFrom lib.bin e.fields t)) : ∃ d, parseTraits lib entries = .ok d := by
  unfold parseTraits
  have h' : ∀ e ∈ entries.filter fun e => isType lib.bin e "TftTraitData".toList, ∃ s, Spec.Gives e.fields "mName".toList (.value (.str s)) ∧
      ("Template".toList <:+: s ∨ ∃ t, Spec.TraitFrom lib.bin e.fields t) := fun e he => by
    rw [List.mem_filter] at he
    exact h e he.1 ((isType_iff (by decide)).1 he.2)
  revert h'
  generalize (entries.filter fun e => isType lib.bin e "TftTraitData".toList) = es
  generalize ([] : Dict Nat TraitData) = d0
  intro h'
  induction es generalizing d0 with
  | nil => exact ⟨_, rfl⟩
  | cons e es ih =>
    obtain ⟨s, hs, ht⟩ := h' e (by simp)
    have ih' := fun d0 => ih d0 fun x hx => h' x (by simp [hx])
    unfold traitsGo
    rw [fieldD_of_gives (by decide) hs]
    refine Succeeds.bind (.ok (containsSub s "Template".toList)) fun b hb => ?_
    cases hb
    split
    · exact ih' _
    · rename_i hc
      rcases ht with ht | ⟨t, ht⟩
      · exact absurd ((containsSub_infix _ _).2 ht) hc
      · exact Succeeds.bind (traitOf_total ht) fun x _ => ih' _

/-- Names of characters can be read when each one has a name. -/
theorem C73_names_succeed (lib : TftLib) (entries : List BinEntry)
    (h : ∀ e ∈ entries, Spec.IsCharacter lib.bin e → ∃ s, Spec.Gives e.fields "name".toList (.value (.str s))) : ∃ d, parseCharacterNames lib entries = .ok d := by
  unfold parseCharacterNames
  refine Succeeds.bind (.mapM fun e he => ?_) fun r _ => .ok _
  rw [List.mem_filter, Bool.or_eq_true, isType_iff (by decide), isType_iff (by decide)] at he
  obtain ⟨s, hs⟩ := h e he.1 he.2
  rw [fieldD_of_gives (by decide) hs]
  exact ⟨_, rfl⟩

/-! ## Sets -/

/-- Names that can be sorted: all of them are texts, or all of them are missing -/
def Spec.Sortable (names : BinPy → Prop) : Prop := (∀ x, names x → ∃ s, x = .value (.str s)) ∨ ∀ x, names x → x = .none

/-- The lists of a set which is used can be read: each link to a list of characters, traits or items is to an entry with a field that can be iterated on
(or without any item), and names of augments and other items can be sorted. -/
structure Spec.ListsReadable (env : BinEnv) (entries : List BinEntry) (fields : List BinField) : Prop where
  characters : ∀ lists, Spec.CharacterLists fields lists → ∀ v ∈ lists, ∀ e, Spec.LinksTo (Spec.IsCharacterList env) entries (.value v) e →
    ∃ l items, Spec.Gives e.fields "Characters".toList l ∧ Spec.Items l items
  traits : ∃ p links, Spec.Gives fields "TraitLists".toList p ∧ Spec.Items p links ∧ ∀ q ∈ links, ∀ e,
    Spec.LinksTo (fun e => Spec.HasType env e "TftTraitList".toList) entries q e → ∃ l items, Spec.Gives e.fields "mTraits".toList l ∧ Spec.Items l items
  items : ∃ p links, Spec.GivesOr fields "ItemLists".toList (.list []) p ∧ Spec.Items p links ∧ ∀ q ∈ links, ∀ e,
    Spec.LinksTo (fun e => Spec.HasType env e "TFTItemList".toList) entries q e → ∃ l items, Spec.GivesOr e.fields "mItems".toList (.list []) l ∧ Spec.Items l items
  augmentNames : Spec.Sortable fun x => ∃ i, Spec.ItemOfSet env entries fields i ∧ Spec.IsAugment i.fields ∧ Spec.GivesOr i.fields "mName".toList .none x
  itemNames : Spec.Sortable fun x => ∃ i, Spec.ItemOfSet env entries fields i ∧ ¬ Spec.IsAugment i.fields ∧ Spec.GivesOr i.fields "mName".toList .none x

/-- A set can be read: it has no list of characters, or no list of traits, or it has a name and its lists can be read. -/
def Spec.SetReadable (env : BinEnv) (entries : List BinEntry) (fields : List BinField) : Prop :=
  ∃ l, Spec.CharacterLists fields l ∧ (l = [] ∨ Spec.GivesOr fields "TraitLists".toList .none .none ∨
    ((∃ name, Spec.SetName fields name) ∧ (Spec.UsedSet fields → Spec.ListsReadable env entries fields)))

theorem sortedNames_total {l : List BinPy} (h : Spec.Sortable (· ∈ l)) : Succeeds (sortedNames l) := by
  unfold sortedNames
  rcases h with h | h
  · have : ∃ names, l.mapM nameText = some names := by
      induction l with
      | nil => exact ⟨[], rfl⟩
      | cons x l ih =>
        obtain ⟨s, rfl⟩ := h x (by simp)
        obtain ⟨names, hn⟩ := ih fun y hy => h y (by simp [hy])
        exact ⟨s :: names, by simp [List.mapM_cons, nameText, hn]⟩
    obtain ⟨names, hn⟩ := this
    rw [hn]
    exact ⟨_, rfl⟩
  · split
    · exact ⟨_, rfl⟩
    · rw [if_pos (List.all_eq_true.2 fun x hx => (pyNone_iff x).2 (h x hx))]
      exact ⟨_, rfl⟩

theorem setOf_total {lib : TftLib} {entries : List BinEntry} {names : Dict Nat Str} {traits : Dict Nat TraitData} {order : List Nat → List Nat} {fields : List BinField}
    (h : Spec.SetReadable lib.bin entries fields) : Succeeds (setOf (setTables lib entries names traits) order fields) := by
  obtain ⟨cl, hcl, h⟩ := h
  unfold setOf
  simp only
  rw [(pyConcat_iff _ _).2 hcl]
  refine Succeeds.bind (.ok cl) fun _ hr => ?_
  cases hr
  by_cases hE : cl.isEmpty = true
  · rw [if_pos hE]; exact ⟨_, rfl⟩
  rw [if_neg hE]
  by_cases hT : isNone (fieldD fields "TraitLists".toList .none) = true
  · rw [if_pos hT]; exact ⟨_, rfl⟩
  rw [if_neg hT]
  obtain ⟨⟨name, hname⟩, hu⟩ : (∃ name, Spec.SetName fields name) ∧ (Spec.UsedSet fields → Spec.ListsReadable lib.bin entries fields) := by
    rcases h with rfl | h | h
    · exact absurd rfl hE
    · rw [(fieldD_iff (by decide) _ _).2 h] at hT
      exact absurd rfl hT
    · exact h
  rw [(setName_iff _ _).2 hname]
  refine Succeeds.bind (.ok name) fun _ hr => ?_
  cases hr
  by_cases hN : (isNone (fieldD fields "number".toList .none) || isNone name) = true
  · rw [if_pos hN]; exact ⟨_, rfl⟩
  rw [if_neg hN]
  rw [Bool.or_eq_true, not_or, pyNone_iff, pyNone_iff] at hN
  rw [pyNone_iff] at hT
  have hr := hu ⟨⟨cl, hcl, by simpa using hE⟩, ⟨_, gives_of_fieldD (by decide) rfl hT, hT⟩, ⟨_, gives_of_fieldD (by decide) rfl hN.1, hN.1⟩, name, hname, hN.2⟩
  refine Succeeds.bind (.mapM fun p hp => ?_) fun chars _ => ?_
  · obtain ⟨v, hv, rfl⟩ := List.mem_map.1 hp
    unfold listCharacters
    split
    · exact ⟨_, rfl⟩
    · rename_i e he
      obtain ⟨l, items, h1, h2⟩ := hr.characters cl hcl v hv e ((linksTo_iff (characterList_iff lib.bin)).1 he)
      rw [fieldD_of_gives (by decide) h1, (iterPy_iff _ _).2 h2]
      exact ⟨_, rfl⟩
  obtain ⟨p, links, h1, h2, h3⟩ := hr.traits
  rw [fieldD_of_gives (by decide) h1, (iterPy_iff _ _).2 h2]
  refine Succeeds.bind (.ok links) fun _ hr => ?_
  cases hr
  refine Succeeds.bind (.mapM fun q hq => ?_) fun traits' _ => ?_
  · unfold listTraits
    split
    · exact ⟨_, rfl⟩
    · rename_i e he
      obtain ⟨l, items, h4, h5⟩ := h3 q hq e ((linksTo_iff (isTypeOf lib.bin (by decide))).1 he)
      rw [fieldD_of_gives (by decide) h4]
      exact ⟨items, (iterPy_iff _ _).2 h5⟩
  obtain ⟨p', links', h1', h2', h3'⟩ := hr.items
  have hi : iterPy (fieldD fields "ItemLists".toList (.list [])) = .ok links' := by
    rw [(fieldD_iff (by decide) _ _).2 h1']
    exact (iterPy_iff _ _).2 h2'
  rw [hi]
  refine Succeeds.bind (.ok links') fun _ hr => ?_
  cases hr
  refine Succeeds.bind (.mapM fun q hq => ?_) fun items hitems => ?_
  · unfold listItems
    split
    · exact ⟨_, rfl⟩
    · rename_i e he
      obtain ⟨l, items, h4, h5⟩ := h3' q hq e ((linksTo_iff (isTypeOf lib.bin (by decide))).1 he)
      rw [(fieldD_iff (by decide) _ _).2 h4, (iterPy_iff _ _).2 h5]
      exact ⟨_, rfl⟩
  have hitem := itemOfSet_iff hi hitems
  refine Succeeds.bind (sortedNames_total ?_) fun a _ => Succeeds.bind (sortedNames_total ?_) fun b _ => .ok _
  · refine hr.augmentNames.imp (fun h x hx => h x ?_) fun h x hx => h x ?_
    all_goals
      obtain ⟨y, hy, rfl⟩ := List.mem_map.1 hx
      rw [List.mem_filter] at hy
      obtain ⟨i, h4, rfl⟩ := (hitem y).1 hy.1
      exact ⟨i, h4, (isAugment_iff _).1 hy.2, (fieldD_iff (by decide) _ _).1 rfl⟩
  · refine hr.itemNames.imp (fun h x hx => h x ?_) fun h x hx => h x ?_
    all_goals
      obtain ⟨y, hy, rfl⟩ := List.mem_map.1 hx
      rw [List.mem_filter] at hy
      obtain ⟨i, h4, rfl⟩ := (hitem y).1 hy.1
      refine ⟨i, h4, fun ha => ?_, (fieldD_iff (by decide) _ _).1 rfl⟩
      have := hy.2
      simp only [(isAugment_iff _).2 ha] at this
      cases this

/-- Sets can be read when there is at least one and each one can be read. -/
theorem C73_sets_succeed (lib : TftLib) (order : List Nat → List Nat) (entries : List BinEntry) (names : Dict Nat Str) (traits : Dict Nat TraitData)
    (he : ∃ e ∈ entries, Spec.HasType lib.bin e "TFTSetData".toList)
    (h : ∀ e ∈ entries, Spec.HasType lib.bin e "TFTSetData".toList → Spec.SetReadable lib.bin entries e.fields) :
    ∃ sets, parseSets lib order entries names traits = .ok sets := by
  have hgo : ∀ es : List BinEntry, (∀ e ∈ es, Spec.SetReadable lib.bin entries e.fields) → Succeeds (setsGo (setTables lib entries names traits) order es) := by
    intro es hes
    induction es with
    | nil => exact ⟨_, rfl⟩
    | cons e es ih =>
      unfold setsGo
      exact Succeeds.bind (setOf_total (hes e (by simp))) fun s _ => Succeeds.bind (ih fun x hx => hes x (by simp [hx])) fun ss _ => .ok _
  unfold parseSets
  split
  · rename_i hn
    obtain ⟨e, he, ht⟩ := he
    have : e ∈ entries.filter fun e => isType lib.bin e "TFTSetData".toList := List.mem_filter.2 ⟨he, (isType_iff (by decide)).2 ht⟩
    rw [hn] at this
    cases this
  · refine hgo _ fun e he => ?_
    rw [List.mem_filter] at he
    exact h e he.1 ((isType_iff (by decide)).1 he.2)

/-! ## Champions -/

/-- The names of scripts of spells are texts (or there is none). They are only compared when the record has no link to spells. -/
def Spec.ScriptNames (env : BinEnv) (file : List BinEntry) : Prop :=
  ∀ e ∈ file, Spec.HasType env e "SpellObject".toList → ∃ t, Spec.GivesOr e.fields "mScriptName".toList (.value (.str [])) (.value (.str t))

theorem firstSpell_some {a b : List BinPy} {k : BinHashKind} {n : Nat} (hn : n ≠ 0) (ha : ∀ x ∈ a, ∃ k, x = .value (.hashed k 0)) :
    firstSpell (a ++ .value (.hashed k n) :: b) = .ok (some n) := by
  induction a with
  | nil => simp only [List.nil_append, firstSpell, pyHash, bind, Except.bind]; rw [if_pos hn]
  | cons x a ih =>
    obtain ⟨k', rfl⟩ := ha x (by simp)
    exact ih fun x hx => ha x (by simp [hx])

theorem firstSpell_none {a : List BinPy} (ha : ∀ x ∈ a, ∃ k, x = .value (.hashed k 0)) : firstSpell a = .ok none := by
  induction a with
  | nil => rfl
  | cons x a ih =>
    obtain ⟨k', rfl⟩ := ha x (by simp)
    exact ih fun x hx => ha x (by simp [hx])

theorem spellMatch_total {lib : TftLib} {record : List BinField} {test : BinEntry → Prop} (h : Spec.SpellTest record test) {file : List BinEntry}
    (hs : Spec.Lacks record "spells".toList → Spec.ScriptNames lib.bin file) :
    ∃ m, spellMatch record = .ok (some m) ∧ Succeeds (findSpell lib m file) ∧ ∀ e b, m.test e = .ok b → (b = true ↔ test e) := by
  have hgo : ∀ (m : SpellMatch) (es : List BinEntry), (∀ e ∈ es, Spec.HasType lib.bin e "SpellObject".toList → Succeeds (m.test e)) → Succeeds (findSpell lib m es) := by
    intro m es hes
    induction es with
    | nil => exact ⟨_, rfl⟩
    | cons e es ih =>
      have ih' := ih fun x hx => hes x (by simp [hx])
      unfold findSpell
      split
      · rename_i ht
        refine Succeeds.bind (hes e (by simp) ((isType_iff (by decide)).1 ht)) fun b _ => ?_
        split
        · exact ⟨_, rfl⟩
        · exact ih'
      · exact ih'
  unfold spellMatch
  rcases h with ⟨p, items, h1, h2, h3⟩ | ⟨h0, p, s, dir, base, h1, h2, rfl, hd, hb, rfl⟩
  · rw [(fieldV_some (by decide) _).2 h1]
    simp only
    rw [(iterPy_iff _ _).2 h2]
    rcases h3 with ⟨a, k, n, b, rfl, h5, h6, rfl⟩ | ⟨h3, rfl⟩
    · refine ⟨.path (some n), ?_, hgo _ _ fun e _ _ => ⟨_, rfl⟩, ?_⟩
      · simp only [bind, Except.bind, firstSpell_some h5 h6]
      · intro e c hc
        cases hc
        simp [eq_comm]
    · refine ⟨.path none, ?_, hgo _ _ fun e _ _ => ⟨_, rfl⟩, ?_⟩
      · simp only [bind, Except.bind, firstSpell_none h3]
      · intro e c hc
        cases hc
        simp
  · rw [(fieldV_none (by decide)).2 h0, (fieldV_some (by decide) _).2 h1]
    simp only
    rw [(index0_iff _ _).2 h2]
    refine ⟨.script (lower (basename (dir ++ base))), rfl, hgo _ _ fun e he ht => ?_, ?_⟩
    rotate_left
    · intro e b he
      simp only [SpellMatch.test, bind, Except.bind] at he
      split at he
      · cases he
      rename_i t ht
      cases he
      have hs : ∃ u, fieldD e.fields "mScriptName".toList (.value (.str [])) = .value (.str u) ∧ t = lower u := by
        generalize fieldD e.fields "mScriptName".toList (.value (.str [])) = q at ht
        unfold pyLower at ht
        split at ht <;> cases ht
        exact ⟨_, rfl, rfl⟩
      obtain ⟨u, hu, rfl⟩ := hs
      rw [basename_dir hd hb, decide_eq_true_iff]
      constructor
      · intro h
        exact ⟨u, (fieldD_iff (by decide) _ _).1 hu, h⟩
      · rintro ⟨t, ht, hl⟩
        rw [← fieldD_iff (by decide), hu] at ht
        cases ht
        exact hl
    obtain ⟨t, hg⟩ := hs h0 e he ht
    unfold SpellMatch.test
    simp only
    rw [(fieldD_iff (by decide) _ _).2 hg]
    exact ⟨_, rfl⟩

theorem champTraits_total {lib : TftLib} {items : List BinPy} (h : ∀ x ∈ items, ∃ part, Spec.LinkedTrait lib.bin x part) : Succeeds (champTraits lib items) := by
  induction items with
  | nil => exact ⟨_, rfl⟩
  | cons x xs ih =>
    have ih' := ih fun y hy => h y (by simp [hy])
    obtain ⟨part, ⟨t, fields, rfl, -⟩ | ⟨k, n, rfl, -⟩⟩ := h x (by simp)
    · unfold champTraits
      exact Succeeds.bind ih' fun l _ => .ok _
    · unfold champTraits
      exact Succeeds.bind (.ok n) fun _ _ => Succeeds.bind ih' fun l _ => .ok _

theorem abilityOf_total {o : Option BinEntry} {vars : List (BinPy × BinPy)} {name desc : BinPy} (h : Spec.Ability o vars name desc) : Succeeds (abilityOf o) := by
  unfold abilityOf
  rcases h with ⟨rfl, -⟩ | ⟨e, spell, sf, l, items, rfl, h1, h2, h3, h4, h5, h6⟩
  · exact ⟨_, rfl⟩
  simp only
  rw [fieldD_of_gives (by decide) h1, (fieldsOf_iff _ _).2 h2]
  refine Succeeds.bind (.ok sf) fun _ hr => ?_
  cases hr
  rw [(fieldD_either (by decide) (by decide) _ _).2 h3, (iterPy_iff _ _).2 h4]
  refine Succeeds.bind (.ok items) fun _ hr => ?_
  cases hr
  refine Succeeds.bind (.mapM fun x hx => ?_) fun r _ => Succeeds.bind ?_ fun _ _ => .ok _
  · obtain ⟨y, -, f, hf, -⟩ := forall₂_mem_left h5 hx
    unfold abilityVariable
    rw [(fieldsOf_iff _ _).2 hf]
    exact ⟨_, rfl⟩
  · have hd : List.Forall₂ Designates [.str "mClientData".toList, .str "mTooltipData".toList, .str "mLocKeys".toList]
        [Spec.nameHash "mClientData".toList, Spec.nameHash "mTooltipData".toList, Spec.nameHash "mLocKeys".toList] :=
      .cons (designates_name (by decide)) (.cons (designates_name (by decide)) (.cons (designates_name (by decide)) .nil))
    obtain ⟨c1, c2⟩ := C23_values sf _ _ hd
    unfold locKeys
    rcases h6 with ⟨v, keys, g1, g2, -⟩ | ⟨g | ⟨v, p, g1, g2, g3⟩, -⟩
    · rw [(c1 v g1 _).2 g2]; exact ⟨_, rfl⟩
    · rw [c2 g]; exact ⟨_, rfl⟩
    · rw [(c1 v g1 _).2 g2]
      have := (pyTruthy_iff p).2 g3
      split
      · rename_i he; cases he
      · exact ⟨_, rfl⟩
      · rename_i q _ he
        cases he
        rw [if_neg (by rw [this]; simp)]
        exact ⟨_, rfl⟩

theorem statOf_total {record : List BinField} {name old : Str} (ha : Ascii name) {default p : BinPy} (h : Spec.Stat record name old default p) :
    Succeeds (statOf record name old default) := by
  unfold statOf
  simp only
  rcases h with ⟨h, -⟩ | ⟨x, f, h1, h2, -⟩
  · rw [(fieldD_iff ha _ _).2 h]; exact ⟨_, rfl⟩
  · rw [fieldD_of_gives ha h1]
    split
    · exact ⟨_, rfl⟩
    · rw [(fieldsOf_iff _ _).2 h2]; exact ⟨_, rfl⟩

theorem champMana_total {record : List BinField} {p : BinPy} (h : Spec.Mana record p) : Succeeds (champMana record) := by
  unfold champMana
  simp only
  rcases h with ⟨h, -⟩ | ⟨x, f, h1, h2, h3⟩
  · rw [(fieldD_iff (by decide) _ _).2 h]; exact ⟨_, rfl⟩
  · rw [fieldD_of_gives (by decide) h1]
    split
    · exact ⟨_, rfl⟩
    · rw [(fieldsOf_iff _ _).2 h2]
      refine Succeeds.bind (.ok f) fun _ hr => ?_
      cases hr
      rcases h3 with ⟨y, m, h4, h5, -⟩ | ⟨h4 | h4, -⟩
      · rw [(fieldVH_some _).2 h4]
        simp only [Option.getD_some]
        split
        · exact ⟨_, rfl⟩
        · rw [(fieldsOf_iff _ _).2 h5]; exact ⟨_, rfl⟩
      · rw [fieldVH_none.2 h4]; exact ⟨_, rfl⟩
      · rw [(fieldVH_some _).2 h4]; exact ⟨_, rfl⟩

theorem statOf_unique {record : List BinField} {name old : Str} (ha : Ascii name) (hb : Ascii old) {default p : BinPy} (h : Spec.Stat record name old default p) :
    statOf record name old default = .ok p := by
  unfold statOf
  simp only
  rcases h with ⟨h, h'⟩ | ⟨x, f, h1, h2, h3⟩
  · rw [(fieldD_iff ha _ _).2 h, (fieldD_iff hb _ _).2 h']; rfl
  · rw [fieldD_of_gives ha h1]
    split
    · rename_i hn
      rw [pyNone_iff] at hn
      subst hn
      cases h2
    · rw [(fieldsOf_iff _ _).2 h2]
      simp only [bind, Except.bind]
      rw [(fieldD_iff (by decide) _ _).2 h3]

theorem champStats_total {lib : TftLib} {record : List BinField} {s : ChampStats} (h : Spec.StatsFrom lib record s) : Succeeds (champStats lib record) := by
  unfold champStats
  refine Succeeds.bind (champMana_total h.mana) fun _ _ => ?_
  refine Succeeds.bind (statOf_total (by decide) h.hp) fun _ _ => ?_
  refine Succeeds.bind (statOf_total (by decide) h.damage) fun _ _ => ?_
  refine Succeeds.bind (statOf_total (by decide) h.armor) fun _ _ => ?_
  refine Succeeds.bind (statOf_total (by decide) h.magicResist) fun _ _ => ?_
  refine Succeeds.bind (statOf_total (by decide) h.attackSpeed) fun _ _ => ?_
  obtain ⟨r, h1, h2⟩ := h.range
  rw [statOf_unique (by decide) (by decide) h1]
  refine Succeeds.bind (.ok r) fun _ hr => ?_
  cases hr
  refine Succeeds.bind ?_ fun _ _ => .ok _
  rcases h2 with ⟨n, q, rfl, -⟩ | ⟨b, rfl, -⟩ <;> exact ⟨_, rfl⟩

theorem firstSpell_unique {env : BinEnv} {file : List BinEntry} {test : BinEntry → Prop} {o o' : Option BinEntry} (h : Spec.FirstSpell env file test o)
    (h' : Spec.FirstSpell env file test o') : o = o' := by
  induction file with
  | nil =>
    rcases h with ⟨a, e, b, he, -⟩ | ⟨-, rfl⟩
    · simp at he
    rcases h' with ⟨a, e, b, he, -⟩ | ⟨-, rfl⟩
    · simp at he
    rfl
  | cons x file ih =>
    by_cases hx : Spec.HasType env x "SpellObject".toList ∧ test x
    · have key : ∀ o, Spec.FirstSpell env (x :: file) test o → o = some x := by
        rintro o (⟨a, e, b, he, h1, h2, h3, rfl⟩ | ⟨h1, -⟩)
        · cases a with
          | nil => cases he; rfl
          | cons y a => cases he; exact absurd hx.2 (h3 x (by simp) hx.1)
        · exact absurd hx.2 (h1 x (by simp) hx.1)
      rw [key o h, key o' h']
    · have key : ∀ o, Spec.FirstSpell env (x :: file) test o → Spec.FirstSpell env file test o := by
        rintro o (⟨a, e, b, he, h1, h2, h3, rfl⟩ | ⟨h1, h2⟩)
        · cases a with
          | nil => cases he; exact absurd ⟨h1, h2⟩ hx
          | cons y a => cases he; exact .inl ⟨a, e, b, rfl, h1, h2, fun y hy => h3 y (by simp [hy]), rfl⟩
        · exact .inr ⟨fun y hy => h1 y (by simp [hy]), h2⟩
      exact ih (key o h) (key o' h')

theorem recordOf_unique {env : BinEnv} {entries : List BinEntry} {r r' : List BinField} (h : Spec.RecordOf env entries r) (h' : Spec.RecordOf env entries r') : r = r' := by
  induction entries with
  | nil =>
    rcases h with ⟨a, e, b, he, -⟩ | ⟨-, rfl⟩
    · simp at he
    rcases h' with ⟨a, e, b, he, -⟩ | ⟨-, rfl⟩
    · simp at he
    rfl
  | cons x entries ih =>
    by_cases hx : Spec.HasType env x "TFTCharacterRecord".toList
    · have key : ∀ r, Spec.RecordOf env (x :: entries) r → r = x.fields := by
        rintro r (⟨a, e, b, he, h1, h2, rfl⟩ | ⟨h1, -⟩)
        · cases a with
          | nil => cases he; rfl
          | cons y a => cases he; exact absurd hx (h2 x (by simp))
        · exact absurd hx (h1 x (by simp))
      rw [key r h, key r' h']
    · have key : ∀ r, Spec.RecordOf env (x :: entries) r → Spec.RecordOf env entries r := by
        rintro r (⟨a, e, b, he, h1, h2, rfl⟩ | ⟨h1, h2⟩)
        · cases a with
          | nil => cases he; exact absurd h1 hx
          | cons y a => cases he; exact .inl ⟨a, e, b, rfl, h1, fun y hy => h2 y (by simp [hy]), rfl⟩
        · exact .inr ⟨fun y hy => h1 y (by simp [hy]), h2⟩
      exact ih (key r h) (key r' h')

theorem champOf_total {lib : TftLib} {entries : List BinEntry} {traits : Dict Nat TraitData} {champ : List BinField} {file : List BinEntry} {record : List BinField}
    {c : ChampData} (h : Spec.ChampFrom lib entries traits champ file record c) (hs : Spec.Lacks record "spells".toList → Spec.ScriptNames lib.bin file) :
    Succeeds (champOf lib traits (entriesOf lib entries "TFTCharacterRoleData".toList) champ file record) := by
  obtain ⟨test, spell, name, desc, h1, h2, h3, -⟩ := h.ability
  obtain ⟨m, hm, ⟨o, ho⟩, ht⟩ := spellMatch_total h1 hs
  have hspell : o = spell := firstSpell_unique (findSpell_ok ht ho) h2
  subst hspell
  unfold champOf
  rw [hm]
  refine Succeeds.bind (.ok (some m)) fun _ hr => ?_
  cases hr
  simp only
  obtain ⟨l, items, parts, g1, g2, g3, -⟩ := h.traits
  rw [(fieldD_iff (by decide) _ _).2 g1, (iterPy_iff _ _).2 g2]
  refine Succeeds.bind (.ok items) fun _ hr => ?_
  cases hr
  refine Succeeds.bind (champTraits_total fun x hx => ?_) fun paths _ => ?_
  · obtain ⟨part, -, hp⟩ := forall₂_mem_left g3 hx
    exact ⟨part, hp⟩
  rw [ho]
  refine Succeeds.bind (.ok o) fun _ hr => ?_
  cases hr
  refine Succeeds.bind (abilityOf_total h3) fun _ _ => ?_
  refine Succeeds.bind ?_ fun _ _ => Succeeds.bind ?_ fun _ _ => Succeeds.bind (champStats_total h.stats) fun _ _ => .ok _
  · unfold champCost
    simp only
    rcases h.cost with ⟨c1, c2⟩ | ⟨c1, n, c2, -⟩
    · rw [fieldD_of_gives (by decide) c2, if_neg (by rw [pyNone_iff]; exact c1)]
      exact ⟨_, rfl⟩
    · rw [(fieldD_iff (by decide) _ _).2 c1, (fieldD_iff (by decide) _ _).2 c2]
      exact ⟨_, rfl⟩
  · unfold champRole
    simp only
    rcases h.role with ⟨c1, -⟩ | ⟨p, e, c1, ⟨n, c2, c3⟩, -⟩
    · rw [(fieldD_iff (by decide) _ _).2 c1]
      exact ⟨_, rfl⟩
    · rw [fieldD_of_gives (by decide) c1]
      split
      · exact ⟨_, rfl⟩
      · have := byPath_total c2 ((entryAt_iff (isTypeOf lib.bin (by decide))).2 c3)
        unfold entriesOf
        rw [this]
        exact ⟨_, rfl⟩

/-- An entry of the shop can be read: it is the template, it has no file, its record has no spell, or it describes a champion. -/
def Spec.ShopReadable (lib : TftLib) (fs : FS) (input : Str) (entries : List BinEntry) (traits : Dict Nat TraitData) (champ : List BinField) : Prop :=
  ∃ s, Spec.Gives champ "mName".toList (.value (.str s)) ∧
    (lower s = "tft_template".toList ∨ (∀ path, ¬ Spec.ChampFile fs input (lower s) path) ∨
     ∃ path data bin record, Spec.ChampFile fs input (lower s) path ∧ fs path = some (.file data) ∧ parseBin none data = .ok bin ∧
        Spec.RecordOf lib.bin bin.entries record ∧
        ((Spec.Lacks record "spells".toList ∧ Spec.Lacks record "spellNames".toList) ∨
         ∃ c, Spec.ChampFrom lib entries traits champ bin.entries record c ∧ (Spec.Lacks record "spells".toList → Spec.ScriptNames lib.bin bin.entries)))

theorem champEntry_total {lib : TftLib} {fs : FS} {input : Str} {entries : List BinEntry} {traits : Dict Nat TraitData} {champ : List BinField}
    (h : Spec.ShopReadable lib fs input entries traits champ) :
    Succeeds (champEntry lib fs input traits (entriesOf lib entries "TFTCharacterRoleData".toList) champ) := by
  obtain ⟨s, hs, h⟩ := h
  unfold champEntry
  rw [fieldD_of_gives (by decide) hs]
  refine Succeeds.bind (.ok (lower s)) fun _ hr => ?_
  cases hr
  by_cases ht : lower s = "tft_template".toList
  · rw [if_pos ht]; exact ⟨_, rfl⟩
  rw [if_neg ht]
  rcases h with h | h | ⟨path, data, bin, record, h1, h2, h3, h4, h5⟩
  · exact absurd h ht
  · split
    · exact ⟨_, rfl⟩
    · rename_i path hp
      exact absurd (champFile_iff.1 hp) (h path)
  · rw [champFile_iff.2 h1]
    simp only
    rw [readFile_iff.2 h2]
    refine Succeeds.bind (.ok data) fun _ hr => ?_
    cases hr
    rw [h3]
    refine Succeeds.bind (.ok bin) fun _ hr => ?_
    cases hr
    rw [recordOf_unique (recordOf lib bin.entries) h4]
    refine Succeeds.bind ?_ fun _ _ => .ok _
    rcases h5 with ⟨h5, h6⟩ | ⟨c, h5, h6⟩
    · unfold champOf spellMatch
      rw [(fieldV_none (by decide)).2 h5, (fieldV_none (by decide)).2 h6]
      exact ⟨_, rfl⟩
    · exact champOf_total h5 h6

/-- Champions can be read when each entry of the shop can be read. -/
theorem C73_champs_succeed (lib : TftLib) (fs : FS) (input : Str) (entries : List BinEntry) (traits : Dict Nat TraitData)
    (h : ∀ e ∈ entries, Spec.HasType lib.bin e "TftShopData".toList → Spec.ShopReadable lib fs input entries traits e.fields) :
    ∃ d, parseChamps lib fs input entries traits = .ok d := by
  unfold parseChamps
  have h' : ∀ e ∈ entries.filter fun e => isType lib.bin e "TftShopData".toList, Spec.ShopReadable lib fs input entries traits e.fields := fun e he => by
    rw [List.mem_filter] at he
    exact h e he.1 ((isType_iff (by decide)).1 he.2)
  revert h'
  generalize (entries.filter fun e => isType lib.bin e "TftShopData".toList) = es
  generalize ([] : Dict Str ChampData) = d0
  intro h'
  induction es generalizing d0 with
  | nil => exact ⟨_, rfl⟩
  | cons e es ih =>
    unfold champsGo
    exact Succeeds.bind (champEntry_total (h' e (by simp))) fun c _ => ih _ fun x hx => h' x (by simp [hx])

/-! ## Items -/

theorem linkField_total {fields : List BinField} {name : Str} (ha : Ascii name) {l : List Nat} (h : Spec.LinkField fields name l) :
    ∃ items, iterPy (fieldD fields name (.list [])) = .ok items ∧ items.mapM pyHash = .ok l := by
  obtain ⟨p, items, h1, h2, h3⟩ := h
  refine ⟨items, ?_, (mapM_eq_ok _ _ _).2 (h3.imp fun i n hi => ?_)⟩
  · rw [(fieldD_iff ha _ _).2 h1]; exact (iterPy_iff _ _).2 h2
  · obtain ⟨k, rfl⟩ := hi; rfl

theorem optText_total {fields : List BinField} {name : Str} (ha : Ascii name) {o : Option Str} (h : Spec.TextField fields name o) :
    Succeeds (optText (fieldD fields name .none)) := by
  rcases h with ⟨s, -, h⟩ | ⟨-, h⟩
  · rw [fieldD_of_gives ha h]; exact ⟨_, rfl⟩
  · rw [(fieldD_iff ha _ _).2 h]; exact ⟨_, rfl⟩

theorem rawItem_total {lib : TftLib} {e : BinEntry} {i : RawItem ItemData} (h : Spec.ItemFrom lib.bin e i) (name : Str) : Succeeds (rawItem lib e name) := by
  unfold rawItem
  refine Succeeds.bind ?_ fun _ _ => ?_
  · rcases h.id with ⟨n, -, h⟩ | ⟨-, h⟩
    · rw [fieldD_of_gives (by decide) h]; exact ⟨_, rfl⟩
    · rw [(fieldD_iff (by decide) _ _).2 h]; exact ⟨_, rfl⟩
  refine Succeeds.bind (optText_total (by decide) h.displayName) fun _ _ => Succeeds.bind (optText_total (by decide) h.desc) fun _ _ => ?_
  obtain ⟨l1, a1, b1⟩ := linkField_total (by decide) h.composition
  obtain ⟨l2, a2, b2⟩ := linkField_total (by decide) h.associatedTraits
  obtain ⟨l3, a3, b3⟩ := linkField_total (by decide) h.incompatibleTraits
  rw [a1]
  refine Succeeds.bind (.ok l1) fun _ hr => ?_
  cases hr
  refine Succeeds.bind ⟨_, b1⟩ fun _ _ => ?_
  rw [a2]
  refine Succeeds.bind (.ok l2) fun _ hr => ?_
  cases hr
  refine Succeeds.bind ⟨_, b2⟩ fun _ _ => ?_
  rw [a3]
  refine Succeeds.bind (.ok l3) fun _ hr => ?_
  cases hr
  refine Succeeds.bind ⟨_, b3⟩ fun _ _ => ?_
  refine Succeeds.bind (collectEffects_total h.effects) fun _ _ => ?_
  obtain ⟨p, items, h1, h2, -⟩ := h.tags
  rw [(fieldD_iff (by decide) _ _).2 h1]
  exact Succeeds.bind ⟨_, (iterPy_iff _ _).2 h2⟩ fun _ _ => .ok _

theorem dict_get_total {K V : Type} [DecidableEq K] {l : List (K × V)} {k : K} (h : k ∈ l.map Prod.fst) : Succeeds ((Dict.ofList l).get k) := by
  have := (Dict.mem_keys_ofList l k).2 h
  unfold Dict.get
  rcases hg : (Dict.ofList l).get? k with _ | v
  · rw [Dict.get?_eq_none] at hg
    exact absurd this hg
  · exact ⟨v, rfl⟩

theorem rawItems_total {lib : TftLib} {es : List BinEntry}
    (h : ∀ e ∈ es, ∃ s, Spec.Gives e.fields "mName".toList (.value (.str s)) ∧ (¬ "Template".toList <:+: s → s ≠ "TFT_Item_Null".toList → ∃ i, Spec.ItemFrom lib.bin e i)) :
    Succeeds (rawItems lib es) := by
  induction es with
  | nil => exact ⟨_, rfl⟩
  | cons e es ih =>
    have ih' := ih fun x hx => h x (by simp [hx])
    obtain ⟨s, hs, hi⟩ := h e (by simp)
    unfold rawItems
    rw [fieldD_of_gives (by decide) hs]
    simp only
    split
    · exact ih'
    · rename_i hn
      rw [Bool.or_eq_true, containsSub_infix, decide_eq_true_iff, not_or] at hn
      obtain ⟨i, hi⟩ := hi hn.1 hn.2
      exact Succeeds.bind (rawItem_total hi s) fun _ _ => Succeeds.bind ih' fun _ _ => .ok _

/-- Items can be read when each one has a name, and those that are kept have readable fields and only link to items that are kept and to traits. -/
theorem C73_items_succeed (lib : TftLib) (entries : List BinEntry)
    (ht : ∀ e ∈ entries, Spec.HasType lib.bin e "TftTraitData".toList → ∃ o, Spec.TextField e.fields "mName".toList o)
    (hn : ∀ e ∈ entries, Spec.HasType lib.bin e "TftItemData".toList → ∃ s, Spec.Gives e.fields "mName".toList (.value (.str s)))
    (hi : ∀ e ∈ entries, ∀ name, Spec.IsItem lib.bin e name → ∃ i, Spec.ItemFrom lib.bin e i ∧
      (∀ h ∈ i.composition, ∃ e' ∈ entries, (∃ name', Spec.IsItem lib.bin e' name') ∧ e'.path = h) ∧
      ∀ h ∈ i.associatedTraits ++ i.incompatibleTraits, ∃ e' ∈ entries, Spec.HasType lib.bin e' "TftTraitData".toList ∧ e'.path = h) :
    ∃ out, parseItemEntries lib entries = .ok out := by
  classical
  unfold parseItemEntries
  refine Succeeds.bind (.mapM fun e he => ?_) fun traits htr => ?_
  · rw [List.mem_filter, isType_iff (by decide)] at he
    obtain ⟨o, ho⟩ := ht e he.1 he.2
    exact Succeeds.bind (optText_total (by decide) ho) fun _ _ => .ok _
  have hes : ∀ e ∈ entries.filter fun e => isType lib.bin e "TftItemData".toList, Spec.HasType lib.bin e "TftItemData".toList :=
    fun e he => (isType_iff (by decide)).1 (List.mem_filter.1 he).2
  refine Succeeds.bind (rawItems_total fun e he => ?_) fun items hit => ?_
  · obtain ⟨s, hs⟩ := hn e (List.mem_filter.1 he).1 (hes e he)
    exact ⟨s, hs, fun h1 h2 => (hi e (List.mem_filter.1 he).1 s ⟨hes e he, hs, h1, h2⟩).imp fun i h => h.1⟩
  obtain ⟨hf, -⟩ := rawItems_ok hes hit
  have hreal : ∀ i ∈ items, Spec.RealItem i := by
    intro i hi'
    obtain ⟨e, he, hie⟩ := forall₂_mem_right hf hi'
    obtain ⟨name, -, hg, h3, h4⟩ := of_decide_eq_true (List.mem_filter.1 he).2
    obtain ⟨s, hs, hg'⟩ := hie.name
    have : s = name := by
      have e1 := fieldD_of_gives (d := .none) (by decide) hg
      have e2 := fieldD_of_gives (d := .none) (by decide) hg'
      rw [e1] at e2; cases e2; rfl
    subst this
    exact ⟨s, hs, h3, h4⟩
  have hkept : keptItems items = .ok items := by
    rcases keptItems_spec items with ⟨-, h⟩ | ⟨⟨i, hi', hn⟩, -⟩
    · rw [h, List.filter_eq_self.2 fun i hi' => decide_eq_true (hreal i hi')]
    · obtain ⟨n, hn', -⟩ := hreal i hi'
      rw [hn] at hn'; cases hn'
  unfold parseItems
  rw [hkept]
  refine Succeeds.bind (.ok items) fun _ hr => ?_
  cases hr
  refine .mapM fun i hi' => ?_
  obtain ⟨e, he, hie⟩ := forall₂_mem_right hf hi'
  rw [List.mem_filter, List.mem_filter] at he
  obtain ⟨name, hname⟩ := of_decide_eq_true he.2
  obtain ⟨j, hj, hc, htl⟩ := hi e he.1.1 name hname
  have huniq : ∀ {fname : Str} {l l' : List Nat}, Ascii fname → Spec.LinkField e.fields fname l → Spec.LinkField e.fields fname l' → l = l' := by
    intro fname l l' ha h1 h2
    obtain ⟨x, a1, b1⟩ := linkField_total ha h1
    obtain ⟨y, a2, b2⟩ := linkField_total ha h2
    rw [a1] at a2; cases a2
    rw [b1] at b2; cases b2
    rfl
  have e1 := huniq (by decide) hie.composition hj.composition
  have e2 := huniq (by decide) hie.associatedTraits hj.associatedTraits
  have e3 := huniq (by decide) hie.incompatibleTraits hj.incompatibleTraits
  rw [← e1] at hc
  rw [← e2, ← e3] at htl
  have hcomp : ∀ h ∈ i.composition, Succeeds ((Dict.ofList (items.map fun i => (i.hash, i))).get h) := by
    intro h hh
    obtain ⟨e', he', hi'', hp⟩ := hc h hh
    obtain ⟨k, hk, hke⟩ := forall₂_mem_left hf (List.mem_filter.2 ⟨List.mem_filter.2 ⟨he', (isType_iff (by decide)).2 hi''.choose_spec.1⟩, decide_eq_true hi''⟩)
    refine dict_get_total ?_
    rw [List.map_map]
    exact List.mem_map.2 ⟨k, hk, by rw [← hp]; exact hke.hash⟩
  have htrait : ∀ h ∈ i.associatedTraits ++ i.incompatibleTraits, Succeeds ((Dict.ofList traits).get h) := by
    intro h hh
    obtain ⟨e', he', hty, hp⟩ := htl h hh
    obtain ⟨k, hk, hke⟩ := forall₂_mem_left ((mapM_eq_ok _ _ _).1 htr) (List.mem_filter.2 ⟨he', (isType_iff (by decide)).2 hty⟩)
    refine dict_get_total (List.mem_map.2 ⟨k, hk, ?_⟩)
    simp only [bind, Except.bind] at hke
    split at hke
    · cases hke
    · cases hke; exact hp
  have hmap : ∀ {α β : Type} {x : Res α} (f : α → β), Succeeds x → Succeeds (x.map f) := by
    rintro α β x f ⟨r, rfl⟩
    exact ⟨_, rfl⟩
  obtain ⟨l1, h1⟩ : Succeeds (i.composition.mapM fun h => ((Dict.ofList (items.map fun i => (i.hash, i))).get h).map fun x => x.id) := .mapM fun h hh => hmap _ (hcomp h hh)
  obtain ⟨l2, h2⟩ : Succeeds (i.composition.mapM fun h => ((Dict.ofList (items.map fun i => (i.hash, i))).get h).map fun x => x.name) := .mapM fun h hh => hmap _ (hcomp h hh)
  obtain ⟨l3, h3⟩ : Succeeds (i.incompatibleTraits.mapM (Dict.ofList traits).get) := .mapM fun h hh => htrait h (List.mem_append_right _ hh)
  obtain ⟨l4, h4⟩ : Succeeds (i.associatedTraits.mapM (Dict.ofList traits).get) := .mapM fun h hh => htrait h (List.mem_append_left _ hh)
  unfold resolveItem
  simp only [h1, h2, h3, h4, bind, Except.bind]
  split <;> exact ⟨_, rfl⟩

/-! ## Cases that meet the hypotheses -/

theorem Succeeds.of_check {α : Type} {x : Res α} (h : (match x with | .ok _ => true | .error _ => false) = true) : Succeeds x := by
  cases x with
  | ok r => exact ⟨r, rfl⟩
  | error e => cases h

theorem forall_type {env : BinEnv} {entries l : List BinEntry} {name : Str} (ha : Ascii name) {P : BinEntry → Prop}
    (hl : (entries.filter fun e => isType env e name) = l) (h : ∀ e ∈ l, P e) : ∀ e ∈ entries, Spec.HasType env e name → P e := by
  intro e he ht
  refine h e ?_
  rw [← hl]
  exact List.mem_filter.2 ⟨he, (isType_iff ha).2 ht⟩

/-- The file of the examples of C73: a trait and a template -/
theorem C73_traits_succeed_met : ∀ e ∈ tftExMap, Spec.HasType tftExLib.bin e "TftTraitData".toList → ∃ s, Spec.Gives e.fields "mName".toList (.value (.str s)) ∧
    ("Template".toList <:+: s ∨ ∃ t, Spec.TraitFrom tftExLib.bin e.fields t) := by
  refine forall_type (by decide) (l := [tftExMap[0], tftExMap[1]]) rfl ?_
  intro e he
  rcases List.mem_cons.1 he with rfl | he
  · obtain ⟨t, ht⟩ : Succeeds (traitOf tftExLib tftExMap[0].fields) := .of_check (by decide +kernel)
    exact ⟨"T_A".toList, (fieldV_some (by decide) _).1 rfl, .inr ⟨t, traitOf_ok ht⟩⟩
  · rw [List.mem_singleton] at he
    subst he
    exact ⟨"T_Template".toList, (fieldV_some (by decide) _).1 rfl, .inl ⟨"T_".toList, [], rfl⟩⟩

theorem C73_names_succeed_met : ∀ e ∈ tftExMap, Spec.IsCharacter tftExLib.bin e → ∃ s, Spec.Gives e.fields "name".toList (.value (.str s)) := by
  intro e he h
  rcases h with h | h
  · exact forall_type (P := fun e => ∃ s, Spec.Gives e.fields "name".toList (.value (.str s))) (l := []) (by decide) rfl (by simp) e he h
  · refine forall_type (P := fun e => ∃ s, Spec.Gives e.fields "name".toList (.value (.str s))) (l := [tftExMap[2]]) (by decide) rfl ?_ e he h
    intro e he
    rw [List.mem_singleton] at he
    subst he
    exact ⟨"TFT_A".toList, (fieldV_some (by decide) _).1 rfl⟩

/-- A set that is used, and one without list of characters -/
theorem C73_sets_succeed_met : ∀ e ∈ tftExMap, Spec.HasType tftExLib.bin e "TFTSetData".toList → Spec.SetReadable tftExLib.bin tftExMap e.fields := by
  refine forall_type (by decide) (l := [tftExMap[9], tftExMap[10]]) rfl ?_
  intro e he
  rcases List.mem_cons.1 he with rfl | he
  · refine ⟨[.hashed .entry 20, .hashed .entry 19], (pyConcat_iff _ _).1 rfl, .inr (.inr ⟨⟨.value (.str "Seven".toList), (setName_iff _ _).1 rfl⟩, fun _ => ?_⟩)⟩
    have hitems : ∀ x, x ∈ [(false, BinPy.value (.str "I_B".toList)), (false, .value (.str "I_A".toList)), (true, .value (.str "I_C".toList))] ↔
        ∃ i, Spec.ItemOfSet tftExLib.bin tftExMap tftExMap[9].fields i ∧ (pyTruthy (fieldD i.fields "IsAugment".toList .none), fieldD i.fields "mName".toList .none) = x :=
      itemOfSet_iff (lib := tftExLib) (entries := tftExMap) (fields := tftExMap[9].fields) (names := []) (traits := []) (links := [.value (.hashed .entry 22)])
        (r := [[(false, .value (.str "I_B".toList)), (false, .value (.str "I_A".toList)), (true, .value (.str "I_C".toList))]]) rfl rfl
    refine ⟨?_, ⟨.list [.hashed .entry 21], [.value (.hashed .entry 21)], (fieldV_some (by decide) _).1 rfl, .list _, ?_⟩,
      ⟨.list [.hashed .entry 22], [.value (.hashed .entry 22)], .inl ((fieldV_some (by decide) _).1 rfl), .list _, ?_⟩, .inl ?_, .inl ?_⟩
    · intro lists hl v hv e he
      have : lists = [.hashed .entry 20, .hashed .entry 19] := by
        rw [← pyConcat_iff] at hl
        have h2 : pyConcat (fieldD tftExMap[9].fields "characterLists".toList (.list [])) (fieldD tftExMap[9].fields "tftCharacterLists".toList (.list [])) =
          .ok [.hashed .entry 20, .hashed .entry 19] := rfl
        rw [h2] at hl
        cases hl
        rfl
      subst this
      rw [← linksTo_iff (characterList_iff tftExLib.bin)] at he
      rcases List.mem_cons.1 hv with rfl | hv
      · have : some tftExMap[3] = some e := he
        cases this
        exact ⟨_, _, (fieldV_some (by decide) _).1 rfl, .list _⟩
      · rw [List.mem_singleton] at hv
        subst hv
        have : none = some e := he
        cases this
    · intro q hq e he
      rw [List.mem_singleton] at hq
      subst hq
      rw [← linksTo_iff (isTypeOf tftExLib.bin (by decide))] at he
      have : some tftExMap[4] = some e := he
      cases this
      exact ⟨_, _, (fieldV_some (by decide) _).1 rfl, .list _⟩
    · intro q hq e he
      rw [List.mem_singleton] at hq
      subst hq
      rw [← linksTo_iff (isTypeOf tftExLib.bin (by decide))] at he
      have : some tftExMap[5] = some e := he
      cases this
      exact ⟨_, _, .inl ((fieldV_some (by decide) _).1 rfl), .list _⟩
    all_goals
      rintro x ⟨i, h1, -, h3⟩
      have := (hitems _).2 ⟨i, h1, rfl⟩
      rw [(fieldD_iff (by decide) _ _).2 h3] at this
      simp only [List.mem_cons, Prod.mk.injEq, List.not_mem_nil, or_false] at this
      rcases this with ⟨-, h⟩ | ⟨-, h⟩ | ⟨-, h⟩ <;> exact ⟨_, h⟩
  · rw [List.mem_singleton] at he
    subst he
    exact ⟨[], (pyConcat_iff _ _).1 rfl, .inl rfl⟩

/-- A champion with a file, and one without file -/
theorem C73_champs_succeed_met : ∀ e ∈ tftExMap, Spec.HasType tftExLib.bin e "TftShopData".toList →
    Spec.ShopReadable tftExLib tftExFS "in".toList tftExMap [] e.fields := by
  refine forall_type (by decide) (l := [tftExMap[11], tftExMap[12]]) rfl ?_
  have hs : ∀ e ∈ [tftExMap[11], tftExMap[12]], Succeeds (champEntry tftExLib tftExFS "in".toList [] (entriesOf tftExLib tftExMap "TFTCharacterRoleData".toList) e.fields) := by
    intro e he
    simp only [List.mem_cons, List.not_mem_nil, or_false] at he
    rcases he with rfl | rfl
    · exact .of_check (by decide +kernel)
    · exact .of_check (by decide +kernel)
  intro e he
  obtain ⟨o, ho⟩ := hs e he
  obtain ⟨s, h1, h2⟩ := champEntry_ok ho
  refine ⟨s, h1, ?_⟩
  rcases h2 with ⟨h2, -⟩ | ⟨-, h2, -⟩ | ⟨-, path, data, bin, record, h2, h3, h4, h5, h6⟩
  · exact .inl h2
  · exact .inr (.inl h2)
  · refine .inr (.inr ⟨path, data, bin, record, h2, h3, h4, h5, h6.imp (fun h => ⟨h.1, h.2.1⟩) fun ⟨c, hc, _⟩ => ⟨c, hc, fun _ => ?_⟩⟩)
    have hd : data = tftExFile := by
      unfold tftExFS at h3
      split at h3
      · cases h3; rfl
      · cases h3
    subst hd
    have hall : (match parseBin none tftExFile with
      | .ok bin => bin.entries.all fun e => match fieldD e.fields "mScriptName".toList (.value (.str [])) with
        | .value (.str _) => true
        | _ => false
      | .error _ => false) = true := by decide +kernel
    rw [h4] at hall
    intro e he _
    have := List.all_eq_true.1 hall e he
    generalize hq : fieldD e.fields "mScriptName".toList (.value (.str [])) = q at this
    split at this
    · rename_i t
      exact ⟨t, (fieldD_iff (by decide) _ _).1 hq⟩
    · cases this

/-- Two items, one of them made with the other one twice, and an augment -/
theorem C73_items_succeed_met :
    (∀ e ∈ tftExMap, Spec.HasType tftExLib.bin e "TftTraitData".toList → ∃ o, Spec.TextField e.fields "mName".toList o) ∧
    (∀ e ∈ tftExMap, Spec.HasType tftExLib.bin e "TftItemData".toList → ∃ s, Spec.Gives e.fields "mName".toList (.value (.str s))) ∧
    ∀ e ∈ tftExMap, ∀ name, Spec.IsItem tftExLib.bin e name → ∃ i, Spec.ItemFrom tftExLib.bin e i ∧
      (∀ h ∈ i.composition, ∃ e' ∈ tftExMap, (∃ name', Spec.IsItem tftExLib.bin e' name') ∧ e'.path = h) ∧
      ∀ h ∈ i.associatedTraits ++ i.incompatibleTraits, ∃ e' ∈ tftExMap, Spec.HasType tftExLib.bin e' "TftTraitData".toList ∧ e'.path = h := by
  have hname : ∀ e ∈ tftExMap, Spec.HasType tftExLib.bin e "TftItemData".toList → ∃ s, Spec.Gives e.fields "mName".toList (.value (.str s)) := by
    refine forall_type (by decide) (l := [tftExMap[6], tftExMap[7], tftExMap[8]]) rfl ?_
    intro e he
    simp only [List.mem_cons, List.not_mem_nil, or_false] at he
    rcases he with rfl | rfl | rfl
    · exact ⟨"I_B".toList, (fieldV_some (by decide) _).1 rfl⟩
    · exact ⟨"I_A".toList, (fieldV_some (by decide) _).1 rfl⟩
    · exact ⟨"I_C".toList, (fieldV_some (by decide) _).1 rfl⟩
  refine ⟨?_, hname, ?_⟩
  · intro e he ht
    obtain ⟨s, hs, -⟩ := C73_traits_succeed_met e he ht
    exact ⟨some s, .inl ⟨s, rfl, hs⟩⟩
  · intro e he name hi
    have hraw : ∀ e ∈ tftExMap, Spec.HasType tftExLib.bin e "TftItemData".toList →
        ∃ i, rawItem tftExLib e name = .ok i ∧ i.associatedTraits = [] ∧ i.incompatibleTraits = [] ∧ ∀ h ∈ i.composition, h = 30 := by
      refine forall_type (by decide) (l := [tftExMap[6], tftExMap[7], tftExMap[8]]) rfl ?_
      intro e he
      simp only [List.mem_cons, List.not_mem_nil, or_false] at he
      rcases he with rfl | rfl | rfl
      · exact ⟨_, rfl, rfl, rfl, by simp⟩
      · exact ⟨_, rfl, rfl, rfl, by simp⟩
      · exact ⟨_, rfl, rfl, rfl, by simp⟩
    obtain ⟨i, h1, h2, h3, h4⟩ := hraw e he hi.1
    refine ⟨i, rawItem_ok hi.2.1 h1, fun h hh => ⟨tftExMap[6], by simp [tftExMap], ⟨"I_B".toList, (isType_iff (by decide)).1 rfl, (fieldV_some (by decide) _).1 rfl, ?_, by decide⟩, ?_⟩, ?_⟩
    · rw [← containsSub_infix]; decide +kernel
    · rw [h4 h hh]; rfl
    · rw [h2, h3]; simp

end Cdtb
