import Verif.Lemmas.TftChamps
/-!
# C73: TFT data is read from BIN files as specified
-/
namespace Cdtb
set_option autoImplicit false
open Py Spec

/-- Traits: those that are not templates, each one made from the last entry with its path. -/
theorem C73_traits (lib : TftLib) (entries : List BinEntry) (d : Dict Nat TraitData) (h : parseTraits lib entries = .ok d) (p : Nat) :
    (∀ t, d.get? p = some t → ∃ e, Spec.EntryOf (Spec.IsTrait lib.bin) entries p e ∧ Spec.TraitFrom lib.bin e.fields t) ∧
    ((∃ e ∈ entries, Spec.IsTrait lib.bin e ∧ e.path = p) → ∃ t, d.get? p = some t) := by
  have hes : ∀ e ∈ entries.filter fun e => isType lib.bin e "TftTraitData".toList, Spec.HasType lib.bin e "TftTraitData".toList :=
    fun e he => (isType_iff (by decide)).1 (List.mem_filter.1 he).2
  obtain ⟨h1, h2⟩ := traitsGo_ok hes h p
  constructor
  · intro t ht
    rcases h1 t ht with ⟨e, he, hf⟩ | ⟨h0, -⟩
    · exact ⟨e, entryAt_filter (fun e he => (isType_iff (by decide)).2 he.1) he, hf⟩
    · cases h0
  · rintro ⟨e, he, hk, hp⟩
    exact h2 (.inl ⟨e, List.mem_filter.2 ⟨he, (isType_iff (by decide)).2 hk.1⟩, hk, hp⟩)

theorem isCharacter_iff (env : BinEnv) (e : BinEntry) :
    (isType env e "Character".toList || isType env e "TftCharacter".toList) = true ↔ Spec.IsCharacter env e := by
  rw [Bool.or_eq_true, isType_iff (by decide), isType_iff (by decide)]; rfl

/-- Names of characters by path, in lower case. -/
theorem C73_names (lib : TftLib) (entries : List BinEntry) (d : Dict Nat Str) (h : parseCharacterNames lib entries = .ok d) (p : Nat) (n : Str) :
    d.get? p = some n ↔ ∃ e s, Spec.EntryOf (Spec.IsCharacter lib.bin) entries p e ∧ Spec.Gives e.fields "name".toList (.value (.str s)) ∧ n = lower s := by
  unfold parseCharacterNames at h
  simp only [bind, Except.bind] at h
  split at h
  · cases h
  rename_i l hl
  cases h
  have hf := (mapM_eq_ok _ _ _).1 hl
  have hf' := hf.imp fun (e : BinEntry) (x : Nat × Str) hx => show x.1 = e.path ∧ ∃ s, Spec.Gives e.fields "name".toList (.value (.str s)) ∧ x.2 = lower s by
    split at hx
    · cases hx
    rename_i v hv
    cases hx
    generalize hq : fieldD e.fields "name".toList .none = q at hv
    unfold pyLower at hv
    split at hv <;> cases hv
    exact ⟨rfl, _, gives_of_fieldD (by decide) hq (by simp), rfl⟩
  clear hf hl
  generalize hes : (entries.filter fun e => isType lib.bin e "Character".toList || isType lib.bin e "TftCharacter".toList) = es at hf'
  have hiff : (Dict.ofList l).get? p = some n ↔ ∃ e s, (Dict.ofList (es.map fun e => (e.path, e))).get? p = some e ∧
      Spec.Gives e.fields "name".toList (.value (.str s)) ∧ n = lower s := by
    simp only [ofList_get?_iff]
    clear hes
    induction hf' with
    | nil => simp
    | @cons e x es l he hes ih =>
      obtain ⟨he1, s, hs1, hs2⟩ := he
      obtain ⟨xp, xn⟩ := x
      simp only at he1 hs2
      subst he1 hs2
      have hkeys : (∀ y ∈ l, y.1 ≠ p) ↔ ∀ y ∈ es.map (fun e => (e.path, e)), y.1 ≠ p := by
        clear ih
        constructor
        · intro hl y hy
          obtain ⟨e', he', rfl⟩ := List.mem_map.1 hy
          obtain ⟨z, hz, hz'⟩ := forall₂_mem_left hes he'
          have := hl z hz
          rw [hz'.1] at this
          exact this
        · intro hl y hy
          obtain ⟨z, hz, hz'⟩ := forall₂_mem_right hes hy
          rw [hz'.1]
          exact hl (z.path, z) (List.mem_map.2 ⟨z, hz, rfl⟩)
      constructor
      · rintro ⟨a, b, hab, hb⟩
        rcases a with _ | ⟨a0, a⟩
        · cases hab
          exact ⟨e, s, ⟨[], _, rfl, hkeys.1 hb⟩, hs1, rfl⟩
        · cases hab
          obtain ⟨e', s', ⟨a', b', h1, h2⟩, h3⟩ := ih.1 ⟨a, b, rfl, hb⟩
          exact ⟨e', s', ⟨(e.path, e) :: a', b', by rw [List.map_cons, h1]; rfl, h2⟩, h3⟩
      · rintro ⟨e', s', ⟨a', b', h1, h2⟩, hg, rfl⟩
        rcases a' with _ | ⟨a0, a'⟩
        · rw [List.map_cons, List.nil_append] at h1
          cases h1
          have : s' = s := by
            have e1 := fieldD_of_gives (d := .none) (by decide) hg
            have e2 := fieldD_of_gives (d := .none) (by decide) hs1
            rw [e1] at e2; cases e2; rfl
          subst this
          exact ⟨[], l, rfl, hkeys.2 h2⟩
        · rw [List.map_cons, List.cons_append] at h1
          obtain ⟨-, h1'⟩ := List.cons.inj h1
          obtain ⟨a, b, h3, h4⟩ := ih.2 ⟨e', s', ⟨a', b', h1', h2⟩, hg, rfl⟩
          exact ⟨(e.path, lower s) :: a, b, by rw [h3]; rfl, h4⟩
  rw [hiff, ← hes]
  simp only [entryAt_iff (isCharacter_iff lib.bin)]

open Classical in
/-- Sets: one for each entry which is used, in order, whatever the order of Python sets. -/
theorem C73_sets (lib : TftLib) (order : List Nat → List Nat) (ho : ∀ l, (order l).Perm l) (entries : List BinEntry) (names : Dict Nat Str) (traits : Dict Nat TraitData)
    (sets : List SetDef) (h : parseSets lib order entries names traits = .ok sets) :
    List.Forall₂ (fun e s => Spec.SetFrom lib.bin entries names traits e.fields s)
      (entries.filter fun e => decide (Spec.HasType lib.bin e "TFTSetData".toList ∧ Spec.UsedSet e.fields)) sets := by
  have hfil : (entries.filter fun e => decide (Spec.HasType lib.bin e "TFTSetData".toList ∧ Spec.UsedSet e.fields)) =
      (entries.filter fun e => isType lib.bin e "TFTSetData".toList).filter fun e => decide (Spec.UsedSet e.fields) := by
    rw [List.filter_filter]
    congr 1
    funext e
    rw [Bool.eq_iff_iff, Bool.and_eq_true, isType_iff (by decide), decide_eq_true_iff, decide_eq_true_iff, and_comm]
  rw [hfil]
  unfold parseSets at h
  split at h
  · cases h
  · exact setsGo_ok ho h

/-- Old files without sets cannot be read, in spite of the code for backward compatibility. -/
theorem C73_no_sets (lib : TftLib) (order : List Nat → List Nat) (entries : List BinEntry) (names : Dict Nat Str) (traits : Dict Nat TraitData)
    (h : ∀ e ∈ entries, ¬ Spec.HasType lib.bin e "TFTSetData".toList) (sets : List SetDef) : parseSets lib order entries names traits ≠ .ok sets := by
  intro hs
  unfold parseSets at hs
  have : (entries.filter fun e => isType lib.bin e "TFTSetData".toList) = [] := by
    rw [List.filter_eq_nil_iff]
    exact fun e he ht => h e he ((isType_iff (by decide)).1 ht)
  rw [this] at hs
  cases hs

open Classical in
/-- Champions: each entry of the shop gives a champion or not, from its own file; for the same name, the last one is kept. -/
theorem C73_champs (lib : TftLib) (fs : FS) (input : Str) (entries : List BinEntry) (traits : Dict Nat TraitData) (d : Dict Str ChampData)
    (h : parseChamps lib fs input entries traits = .ok d) :
    ∃ results, List.Forall₂ (fun e o => Spec.ShopEntry lib fs input entries traits e.fields o)
        (entries.filter fun e => decide (Spec.HasType lib.bin e "TftShopData".toList)) results ∧
      Spec.LastPairs (results.filterMap id) d := by
  have hfil : (entries.filter fun e => decide (Spec.HasType lib.bin e "TftShopData".toList)) = entries.filter fun e => isType lib.bin e "TftShopData".toList := by
    congr 1
    funext e
    rw [Bool.eq_iff_iff, isType_iff (by decide), decide_eq_true_iff]
  rw [hfil]
  obtain ⟨results, h1, h2⟩ := champsGo_ok h
  refine ⟨results, h1, ?_⟩
  rw [h2]
  exact Spec.lastPairs _

/-- The icon of a champion without splash is the text `None`, even if there is another icon. -/
theorem C73_no_splash (lib : TftLib) (entries : List BinEntry) (traits : Dict Nat TraitData) (champ : List BinField) (file : List BinEntry) (record : List BinField)
    (c : ChampData) (hc : Spec.ChampFrom lib entries traits champ file record c) (h : Spec.Lacks champ "PcSplashPath".toList) : c.icon = .value (.str "None".toList) := by
  rcases hc.icon .none "None".toList (.inr ⟨h, rfl⟩) .none with ⟨-, h⟩ | ⟨h, -⟩
  · exact h
  · cases h

/-- A role which is not in the file makes the whole export fail. -/
theorem C73_missing_role (lib : TftLib) (entries : List BinEntry) (record : List BinField) (k : BinHashKind) (n : Nat)
    (hr : Spec.Gives record "CharacterRole".toList (.value (.hashed k n))) (h : ∀ e ∈ entries, Spec.HasType lib.bin e "TFTCharacterRoleData".toList → e.path ≠ n) :
    champRole (entriesOf lib entries "TFTCharacterRoleData".toList) record = .error .key := by
  unfold champRole
  rw [fieldD_of_gives (by decide) hr]
  have hn : (entriesOf lib entries "TFTCharacterRoleData".toList).get? n = none := by
    rw [← Option.not_isSome_iff_eq_none, Option.isSome_iff_exists]
    rintro ⟨e, he⟩
    obtain ⟨a, b, rfl, hk, hp, -⟩ := (entryAt_iff (isTypeOf lib.bin (by decide))).1 he
    exact h e (by simp) hk hp
  simp only [isNone, byPath, bind, Except.bind]
  rw [hn]
  rfl

open Classical in
/-- Items: those of the file but templates and the null item, resolved as in C54. -/
theorem C73_items (lib : TftLib) (entries : List BinEntry) (out : List (TftItem ItemData)) (h : parseItemEntries lib entries = .ok out) :
    ∃ items traits, List.Forall₂ (Spec.ItemFrom lib.bin) (entries.filter fun e => decide (∃ name, Spec.IsItem lib.bin e name)) items ∧
      List.Forall₂ (fun e (x : Nat × Option Str) => x.1 = e.path ∧ Spec.TextField e.fields "mName".toList x.2)
        (entries.filter fun e => decide (Spec.HasType lib.bin e "TftTraitData".toList)) traits ∧
      List.Forall₂ (Spec.ItemOutput items traits) items out := by
  unfold parseItemEntries at h
  simp only [bind, Except.bind] at h
  split at h
  · cases h
  rename_i traits ht
  split at h
  · cases h
  rename_i items hi
  have hes : ∀ e ∈ entries.filter fun e => isType lib.bin e "TftItemData".toList, Spec.HasType lib.bin e "TftItemData".toList :=
    fun e he => (isType_iff (by decide)).1 (List.mem_filter.1 he).2
  obtain ⟨h1, -⟩ := rawItems_ok hes hi
  have hfil : ((entries.filter fun e => isType lib.bin e "TftItemData".toList).filter fun e => decide (∃ name, Spec.IsItem lib.bin e name)) =
      entries.filter fun e => decide (∃ name, Spec.IsItem lib.bin e name) := by
    rw [List.filter_filter]
    congr 1
    funext e
    rw [Bool.eq_iff_iff, Bool.and_eq_true, decide_eq_true_iff, isType_iff (by decide)]
    exact ⟨fun h => h.1, fun h => ⟨h, h.choose_spec.1⟩⟩
  rw [hfil] at h1
  refine ⟨items, traits, h1, ?_, ?_⟩
  · have hfil' : (entries.filter fun e => decide (Spec.HasType lib.bin e "TftTraitData".toList)) = entries.filter fun e => isType lib.bin e "TftTraitData".toList := by
      congr 1
      funext e
      rw [Bool.eq_iff_iff, isType_iff (by decide), decide_eq_true_iff]
    rw [hfil']
    refine ((mapM_eq_ok _ _ _).1 ht).imp fun e x hx => ?_
    split at hx
    · cases hx
    rename_i n hn
    cases hx
    exact ⟨rfl, optText_ok (by decide) hn⟩
  · obtain ⟨-, h2⟩ := (C54_items items traits out).1 h
    have : (items.filter fun i => decide (Spec.RealItem i)) = items := by
      rw [List.filter_eq_self]
      intro i hi'
      obtain ⟨e, he, hie⟩ := forall₂_mem_right h1 hi'
      obtain ⟨name, -, hg, h3, h4⟩ := of_decide_eq_true (List.mem_filter.1 he).2
      obtain ⟨s, hs, hg'⟩ := hie.name
      have : s = name := by
        have e1 := fieldD_of_gives (d := .none) (by decide) hg
        have e2 := fieldD_of_gives (d := .none) (by decide) hg'
        rw [e1] at e2; cases e2; rfl
      subst this
      rw [decide_eq_true_iff]
      exact ⟨s, hs, h3, h4⟩
    rw [this] at h2
    exact h2

/-! ## Examples -/

def tftExLib : TftLib where
  bin := ⟨fun _ => [], fun _ => 0⟩
  repr _ := []
  div180 _ := .none

def tftExField (name : String) (v : BinValue) : BinField := .mk (fnv1a (lowerBytes name.toList)).toNat .string v

def tftExEntry (path : Nat) (type : String) (fields : List BinField) : BinEntry := ⟨path, (fnv1a (lowerBytes type.toList)).toNat, fields⟩

/-- The file of a champion: its record (spell `Characters/A/ASpell`, tier 4, links to traits 50 and 99, range 540) and its spell -/
def tftExFile : Bytes := [80, 82, 79, 80, 3, 0, 0, 0, 0, 0, 0, 0, 2, 0, 0, 0, 241, 150, 68, 48, 6, 90, 126, 94, 78, 0, 0, 0, 1, 0, 0, 0, 4, 0, 3, 113, 195, 191, 128, 16, 25, 0, 0, 0, 1, 0, 0, 0, 19, 0, 67, 104, 97, 114, 97, 99, 116, 101, 114, 115, 47, 65, 47, 65, 83, 112, 101, 108, 108, 9, 181, 81, 92, 3, 4, 172, 202, 247, 26, 128, 132, 12, 0, 0, 0, 2, 0, 0, 0, 50, 0, 0, 0, 99, 0, 0, 0, 10, 153, 112, 194, 6, 28, 2, 0, 0, 66, 0, 0, 0, 2, 0, 0, 0, 2, 0, 240, 126, 227, 200, 16, 6, 0, 97, 115, 112, 101, 108, 108, 82, 190, 210, 86, 131, 135, 80, 12, 253, 34, 0, 0, 0, 1, 0, 27, 239, 175, 6, 128, 131, 22, 0, 0, 0, 1, 0, 0, 0, 244, 78, 12, 252, 10, 0, 0, 0, 1, 0, 219, 191, 239, 25, 16, 1, 0, 68]

/-- A file with traits 50 (with two levels) and 51 (a template), a character, lists, two sets (the second one has no list), items and a champion -/
def tftExMap : List BinEntry := [
  tftExEntry 50 "TftTraitData" [tftExField "mName" (.str "T_A".toList), tftExField "mDisplayNameTra" (.str "trait_a".toList),
    tftExField "InnateTraitSets" (.list .embedded [.embedded 0 [tftExField "effectAmounts" (.list .embedded [
      .embedded 0 [tftExField "name" (.str "X".toList), tftExField "value" (.int 1)], .embedded 0 [tftExField "name" (.str "Y".toList), tftExField "value" (.int 2)]])]]),
    tftExField "mTraitSets" (.list .embedded [.embedded 0 [tftExField "mMinUnits" (.int 2)],
      .embedded 0 [tftExField "mMinUnits" (.int 4), tftExField "mMaxUnits" (.int 6), tftExField "effectAmounts" (.list .embedded [
        .embedded 0 [tftExField "name" (.str "X".toList), tftExField "value" (.int 3)]])]])],
  tftExEntry 51 "TftTraitData" [tftExField "mName" (.str "T_Template".toList)],
  tftExEntry 10 "TftCharacter" [tftExField "name" (.str "TFT_A".toList)],
  tftExEntry 20 "MapCharacterList" [tftExField "Characters" (.list .link [.hashed .entry 10, .hashed .entry 11])],
  tftExEntry 21 "TftTraitList" [tftExField "mTraits" (.list .link [.hashed .entry 50, .hashed .entry 51, .hashed .entry 50])],
  tftExEntry 22 "TFTItemList" [tftExField "mItems" (.list .link [.hashed .entry 30, .hashed .entry 31, .hashed .entry 32])],
  tftExEntry 30 "TftItemData" [tftExField "mName" (.str "I_B".toList)],
  tftExEntry 31 "TftItemData" [tftExField "mName" (.str "I_A".toList), tftExField "mComposition" (.list .link [.hashed .entry 30, .hashed .entry 30])],
  tftExEntry 32 "TftItemData" [tftExField "mName" (.str "I_C".toList), tftExField "IsAugment" (.bool true)],
  tftExEntry 40 "TFTSetData" [tftExField "number" (.int 7), tftExField "name" (.str "M".toList), tftExField "characterLists" (.list .link [.hashed .entry 20, .hashed .entry 19]),
    tftExField "TraitLists" (.list .link [.hashed .entry 21]), tftExField "ItemLists" (.list .link [.hashed .entry 22]),
    tftExField "ScriptData" (.map .string .embedded [.mk (.str "SetName".toList) (.embedded 0 [tftExField "mValue" (.str "Seven".toList)])])],
  tftExEntry 41 "TFTSetData" [tftExField "number" (.int 8)],
  tftExEntry 60 "TftShopData" [tftExField "mName" (.str "TFT_A".toList), tftExField "mAbilityNameTra" (.str "ab".toList)],
  tftExEntry 61 "TftShopData" [tftExField "mName" (.str "TFT_B".toList)]]

def tftExFS : FS := fun p => if p = "in/data/characters/tft_a/tft_a.bin".toList then some (.file tftExFile) else none

/-- What can be compared -/
def tftExText : BinPy → Str
  | .value (.str s) => s
  | .value (.int n) => showInt n
  | .none => "None".toList
  | _ => []

def tftExTraits : Option (List (List Str)) := match parseTraits tftExLib tftExMap with
  | .ok d => some (d.flatMap fun x => [showNat 10 x.1, tftExText x.2.name] :: x.2.effects.map fun t =>
      [t.minUnits, t.maxUnits, t.style].map tftExText ++ t.vars.flatMap fun v => [v.1, tftExText v.2])
  | .error _ => none

/-- The trait has both levels, with the effects of the innate set replaced by those of the level; the template is not there. -/
theorem C73_traits_met : tftExTraits = some [["50".toList, "trait_a".toList],
      ["2".toList, "25000".toList, "1".toList, "X".toList, "1".toList, "Y".toList, "2".toList],
      ["4".toList, "6".toList, "1".toList, "X".toList, "3".toList, "Y".toList, "2".toList]] := by decide +kernel

def tftExSets : Option (List (List (List Str))) := match parseCharacterNames tftExLib tftExMap, parseTraits tftExLib tftExMap with
  | .ok names, .ok traits => match parseSets tftExLib id tftExMap names traits with
    | .ok sets => some (sets.map fun s => [[s.number, s.mutator, s.name].map tftExText, s.chars, s.traits.map fun t => tftExText t.2.apiName, s.augments.map tftExText, s.items.map tftExText])
    | .error _ => none
  | _, _ => none

/-- The second set is not used. -/
theorem C73_sets_met : tftExSets = some [[["7".toList, "M".toList, "Seven".toList], ["tft_a".toList], ["T_A".toList], ["I_C".toList], ["I_A".toList, "I_B".toList]]] := by
  decide +kernel

def tftExChamps : Option (List (List (List Str))) := match parseTraits tftExLib tftExMap with
  | .ok traits => match parseChamps tftExLib tftExFS "in".toList tftExMap traits with
    | .ok d => some (d.map fun x => [[x.1], [x.2.cost, x.2.icon, x.2.role, x.2.stats.mana, x.2.stats.range, x.2.abilityName].map tftExText, x.2.traits.map tftExText,
        x.2.abilityVars.flatMap fun v => [tftExText v.1, tftExText v.2]])
    | .error _ => none
  | .error _ => none

/-- The second champion has no file. -/
theorem C73_champs_met : tftExChamps = some [[["tft_a".toList], ["4".toList, "None".toList, "None".toList, "100".toList, "3".toList, "ab".toList], ["trait_a".toList],
      ["D".toList, "None".toList]]] := by decide +kernel

def tftExItems : Option (List (Option Str × List (Option Str))) := match parseItemEntries tftExLib tftExMap with
  | .ok items => some (items.map fun i => (i.apiName, i.composition))
  | .error _ => none

theorem C73_items_met : tftExItems = some [(some "I_B".toList, []), (some "I_A".toList, [some "I_B".toList, some "I_B".toList]), (some "I_C".toList, [])] := by
  decide +kernel

end Cdtb
