import Verif.Spec.TftBin
import Verif.Lemmas.Arena
import Verif.Props.C54
import Verif.Props.C57
import Verif.Props.C59names
import Verif.Props.C69
/-! # Reading data of TFT -/
namespace Cdtb
set_option autoImplicit false
open Py Spec

theorem Spec.lastPairs {K V : Type} [DecidableEq K] (l : List (K × V)) : Spec.LastPairs l (Dict.ofList l) := fun k v => ofList_get?_iff l k v

theorem dictUnion_get? {a b : Dict Str BinPy} (hb : Dict.WF b) (k : Str) : (dictUnion a b).get? k = (b.get? k).or (a.get? k) := by
  unfold dictUnion
  induction b generalizing a with
  | nil => rfl
  | cons x b ih =>
    obtain ⟨j, v⟩ := x
    have hw : Dict.WF b := (List.nodup_cons.1 hb).2
    have hj : j ∉ Dict.keys b := (List.nodup_cons.1 hb).1
    rw [List.foldl_cons, ih hw, Dict.get?_set]
    have hc : Dict.get? ((j, v) :: b) k = if j = k then some v else Dict.get? b k := by
      simp only [Dict.get?]
    rw [hc]
    by_cases h : j = k
    · subst h
      rw [Dict.get?_eq_none.2 hj]; simp
    · rw [if_neg h, if_neg (fun e => h e.symm)]

theorem collectEffects_wf {lib : TftLib} {fields : List BinField} {d : Dict Str BinPy} (h : collectEffects lib fields = .ok d) : Dict.WF d := by
  unfold collectEffects at h
  simp only [bind, Except.bind] at h
  repeat' split at h
  all_goals first | cases h; done | (cases h; first | exact Dict.WF.ofList _ | exact Dict.WF.nil)

theorem dictUnion_wf {a b : Dict Str BinPy} (ha : Dict.WF a) : Dict.WF (dictUnion a b) := Dict.WF.foldl_set b a ha

theorem merged_two {a b : Dict Str BinPy} (hb : Dict.WF b) : Spec.Merged [a, b] (dictUnion a b) := by
  intro k v
  rw [dictUnion_get? hb]
  constructor
  · intro h
    rcases hk : b.get? k with _ | w
    · rw [hk] at h
      exact ⟨[], a, [b], rfl, h, by simpa using hk⟩
    · rw [hk] at h
      exact ⟨[a], b, [], rfl, by rw [hk]; exact h, by simp⟩
  · rintro ⟨x, e, y, he, hg, hn⟩
    rcases x with _ | ⟨x1, _ | ⟨x2, x⟩⟩
    · cases he
      rw [hn b (by simp)]; exact hg
    · cases he
      rw [hg]; rfl
    · simp at he

theorem merged_snoc {ds : List (Dict Str BinPy)} {a b : Dict Str BinPy} (hb : Dict.WF b) (h : Spec.Merged ds a) : Spec.Merged (ds ++ [b]) (dictUnion a b) := by
  intro k v
  rw [dictUnion_get? hb]
  constructor
  · intro hg
    rcases hk : b.get? k with _ | w
    · rw [hk] at hg
      obtain ⟨x, e, y, rfl, he, hn⟩ := (h k v).1 hg
      exact ⟨x, e, y ++ [b], by simp, he, by intro z hz; rcases List.mem_append.1 hz with hz | hz; exact hn z hz; rw [List.mem_singleton.1 hz]; exact hk⟩
    · rw [hk] at hg
      exact ⟨ds, b, [], rfl, by rw [hk]; exact hg, by simp⟩
  · rintro ⟨x, e, y, he, hg, hn⟩
    rcases List.eq_nil_or_concat y with rfl | ⟨y, z, rfl⟩
    · obtain ⟨rfl, h2⟩ := List.append_inj' he rfl
      cases h2
      rw [hg]; rfl
    · have he' : ds ++ [b] = (x ++ e :: y) ++ [z] := by rw [he]; simp
      obtain ⟨rfl, h2⟩ := List.append_inj' he' rfl
      cases h2
      rw [hn b (by simp)]
      exact (h k v).2 ⟨x, e, y, rfl, hg, fun w hw => hn w (by simp [hw])⟩

theorem textOf_str (lib : TftLib) (p : BinPy) : Spec.StrOf lib.bin p (lib.str p) := fun _ hs => hs.strOf lib.repr

theorem fieldVH_some {fields : List BinField} {h : Nat} (p : BinPy) : fieldVH fields h = some p ↔ Spec.GivesHash fields h p := by
  have hd : Designates (.int (Int.ofNat h)) h := .int h
  obtain ⟨h1, h2⟩ := C23_get fields (.int (Int.ofNat h)) _ hd
  rcases hg : getField fields (.int (Int.ofNat h)) with e | f
  · have hk : e = .key := by
      unfold getField at hg
      rw [hd.hash] at hg
      simp only [bind, Except.bind] at hg
      split at hg <;> cases hg
      rfl
    subst hk
    have hv : getv fields (.int (Int.ofNat h)) = .ok .default := by unfold getv; rw [hg]
    have hn := h2.1 hg
    simp only [fieldVH, hv]
    refine ⟨fun h => (nomatch h), ?_⟩
    rintro ⟨f, ⟨a, b, rfl, hf, -⟩, -⟩
    exact absurd hf (hn f (by simp))
  · have hf : FirstField fields h f := (h1 f).1 hg
    have hv := C23_getv fields (.int (Int.ofNat h)) _ hd f hf
    have hp : getv fields (.int (Int.ofNat h)) = .ok (toPython f.value) := by unfold getv; rw [hg]
    have hne : toPython f.value ≠ .default := by
      cases f with | mk n t v => cases v <;> simp [toPython, BinField.value] <;> rename_i o <;> cases o <;> simp
    have hfv : fieldVH fields h = some (toPython f.value) := by
      unfold fieldVH
      rw [hp]
      generalize toPython f.value = q at hne
      cases q <;> first | rfl | exact absurd rfl hne
    rw [hfv, Option.some.injEq]
    constructor
    · rintro rfl
      exact ⟨f, hf, (hv _).1 hp⟩
    · rintro ⟨f', hf', hu⟩
      have : f' = f := by
        have := (h1 f').2 hf'
        rw [hg] at this
        cases this; rfl
      subst this
      have := (hv p).2 hu
      rw [hp] at this
      cases this; rfl

theorem fieldVH_none {fields : List BinField} {h : Nat} : fieldVH fields h = none ↔ Spec.LacksHash fields h := by
  have hd : Designates (.int (Int.ofNat h)) h := .int h
  obtain ⟨h1, h2⟩ := C23_get fields (.int (Int.ofNat h)) _ hd
  constructor
  · intro hn
    rcases hg : getField fields (.int (Int.ofNat h)) with e | f
    · have hk : e = .key := by
        unfold getField at hg
        rw [hd.hash] at hg
        simp only [bind, Except.bind] at hg
        split at hg <;> cases hg
        rfl
      subst hk
      exact h2.1 hg
    · have hv := (fieldVH_some (fields := fields) (h := h) (toPython f.value)).2 ⟨f, (h1 f).1 hg, by
        rw [← C23_getv fields (.int (Int.ofNat h)) _ hd f ((h1 f).1 hg)]; unfold getv; rw [hg]⟩
      rw [hn] at hv; cases hv
  · intro hl
    have hg := h2.2 hl
    simp only [fieldVH, getv, hg]

theorem collectEffects_ok {lib : TftLib} {fields : List BinField} {d : Dict Str BinPy} (h : collectEffects lib fields = .ok d) : Spec.Effects lib.bin fields d := by
  unfold collectEffects at h
  split at h
  · rename_i p hp
    simp only [bind, Except.bind] at h
    split at h
    · cases h
    rename_i items hi
    split at h
    · cases h
    rename_i l hl
    cases h
    refine .inl ⟨p, items, l, (fieldV_some (by decide) _).1 hp, (iterPy_iff _ _).1 hi, ?_, Spec.lastPairs l⟩
    refine ((mapM_eq_ok _ _ _).1 hl).imp fun a b hab => ?_
    unfold effectAmount at hab
    simp only [bind, Except.bind] at hab
    split at hab
    · cases hab
    rename_i f hf
    cases hab
    exact ⟨f, _, (fieldsOf_iff _ _).1 hf, (fieldD_iff (by decide) _ _).1 rfl, textOf_str lib _, (fieldD_iff (by decide) _ _).1 rfl⟩
  · rename_i hn
    split at h
    · rename_i p hp
      simp only [bind, Except.bind] at h
      split at h
      · cases h
      rename_i c hc
      split at h
      · cases h
      rename_i items hi
      split at h
      · cases h
      rename_i l hl
      cases h
      refine .inr (.inl ⟨(fieldV_none (by decide)).1 hn, p, c, items, l, (fieldV_some (by decide) _).1 hp, (fieldsOf_iff _ _).1 hc, ?_, ?_, Spec.lastPairs l⟩)
      · rcases hv : fieldVH c 0xdf085b93 with _ | q
        · rw [hv] at hi
          cases hi
          exact .inr ⟨fieldVH_none.1 hv, rfl⟩
        · rw [hv] at hi
          rw [Option.getD_some] at hi
          unfold pyItems at hi
          split at hi <;> cases hi
          exact .inl ((fieldVH_some _).1 hv)
      · refine ((mapM_eq_ok _ _ _).1 hl).imp fun a b hab => ?_
        unfold effectConstant at hab
        simp only [bind, Except.bind] at hab
        split at hab
        · cases hab
        rename_i f hf
        cases hab
        exact ⟨f, (fieldsOf_iff _ _).1 hf, textOf_str lib _, (fieldD_iff (by decide) _ _).1 rfl⟩
    · rename_i hn'
      cases h
      exact .inr (.inr ⟨(fieldV_none (by decide)).1 hn, (fieldV_none (by decide)).1 hn', rfl⟩)

theorem innateEffects_ok {lib : TftLib} {d0 d : Dict Str BinPy} {ds0 : List (Dict Str BinPy)} {items : List BinPy} (hm : Spec.Merged ds0 d0)
    (h : innateEffects lib d0 items = .ok d) :
    ∃ ds, List.Forall₂ (fun i d => ∃ f, Spec.IsObject i f ∧ Spec.Effects lib.bin f d) items ds ∧ Spec.Merged (ds0 ++ ds) d := by
  induction items generalizing d0 ds0 with
  | nil => cases h; exact ⟨[], .nil, by simpa using hm⟩
  | cons i items ih =>
    unfold innateEffects at h
    simp only [bind, Except.bind] at h
    split at h
    · cases h
    rename_i f hf
    split at h
    · cases h
    rename_i e he
    obtain ⟨ds, h1, h2⟩ := ih (merged_snoc (collectEffects_wf he) hm) h
    exact ⟨e :: ds, .cons ⟨f, (fieldsOf_iff _ _).1 hf, collectEffects_ok he⟩ h1, by simpa using h2⟩

theorem traitEffect_ok {lib : TftLib} {m : Str} {base : Dict Str BinPy} {p : BinPy} {t : TraitEffect} (hm : m = [] ∨ m = ['m'])
    (h : traitEffect lib m base p = .ok t) : Spec.LevelFrom lib.bin m base p t := by
  unfold traitEffect at h
  simp only [bind, Except.bind] at h
  split at h
  · cases h
  rename_i f hf
  split at h
  · cases h
  rename_i e he
  cases h
  have ha : Ascii (m ++ "MinUnits".toList) ∧ Ascii (m ++ "MaxUnits".toList) ∧ Ascii (m ++ "Style".toList) := by
    rcases hm with rfl | rfl <;> decide
  refine ⟨f, _, e, (fieldsOf_iff _ _).1 hf, (fieldD_iff ha.1 _ _).1 rfl, (fieldD_iff ha.2.1 _ _).1 rfl, ?_, (fieldD_iff ha.2.2 _ _).1 rfl,
    collectEffects_ok he, merged_two (collectEffects_wf he)⟩
  generalize fieldD f (m ++ "MaxUnits".toList) .none = q
  by_cases hq : pyTruthy q = true
  · refine .inr ⟨fun hf => ?_, if_pos hq⟩
    rw [(pyTruthy_iff q).2 hf] at hq; cases hq
  · refine .inl ⟨(pyTruthy_iff q).1 (by simpa using hq), if_neg hq⟩

theorem traitOf_ok {lib : TftLib} {fields : List BinField} {t : TraitData} (h : traitOf lib fields = .ok t) : Spec.TraitFrom lib.bin fields t := by
  unfold traitOf at h
  simp only [bind, Except.bind] at h
  split at h
  · cases h
  rename_i innate hi
  split at h
  · cases h
  rename_i base hb
  split at h
  · cases h
  rename_i sets hs
  split at h
  · cases h
  rename_i effects he
  cases h
  refine ⟨(fieldD_iff (by decide) _ _).1 rfl, (fieldD_iff (by decide) _ _).1 rfl, (fieldD_iff (by decide) _ _).1 rfl, ?_, ?_⟩
  · intro p hp
    rw [(fieldD_iff (by decide) _ _).2 hp]
    exact textOf_str lib p
  · obtain ⟨ds, h1, h2⟩ := innateEffects_ok (ds0 := []) (fun k v => by simp [Dict.get?]) hb
    have hpre : (traitSets fields).1 = [] ∨ (traitSets fields).1 = ['m'] := by
      unfold traitSets; split
      · exact .inr rfl
      · exact .inl rfl
    refine ⟨_, innate, ds, base, (traitSets fields).1, (traitSets fields).2, sets, (fieldD_iff (by decide) _ _).1 rfl, (iterPy_iff _ _).1 hi, h1, h2, ?_,
      (iterPy_iff _ _).1 hs, ((mapM_eq_ok _ _ _).1 he).imp fun _ _ hab => traitEffect_ok hpre hab⟩
    unfold traitSets
    rcases hv : fieldV fields "mTraitSets".toList with _ | p
    · exact .inr ⟨rfl, (fieldV_none (by decide)).1 hv, (fieldD_iff (by decide) _ _).1 rfl⟩
    · exact .inl ⟨rfl, (fieldV_some (by decide) _).1 hv⟩

/-- Entries of a dict indexed by path -/
theorem entryAt_iff {kind : BinEntry → Prop} {test : BinEntry → Bool} (ht : ∀ e, test e = true ↔ kind e) {entries : List BinEntry} {h : Nat} {e : BinEntry} :
    (Dict.ofList ((entries.filter test).map fun e => (e.path, e))).get? h = some e ↔ Spec.EntryOf kind entries h e := by
  rw [ofList_get?_iff]
  constructor
  · rintro ⟨a, b, he, hb⟩
    rw [List.map_eq_append_iff] at he
    obtain ⟨l1, l2, he, h1, h2⟩ := he
    rw [List.map_eq_cons_iff] at h2
    obtain ⟨e', l3, rfl, h3, h4⟩ := h2
    cases h3
    rw [List.filter_eq_append_iff] at he
    obtain ⟨m1, m2, rfl, -, h5⟩ := he
    rw [List.filter_eq_cons_iff] at h5
    obtain ⟨m3, m4, rfl, h6, h7, h8⟩ := h5
    refine ⟨m1 ++ m3, m4, by simp, (ht _).1 h7, rfl, fun x hx hk => ?_⟩
    have : x ∈ l3 := by rw [← h8]; exact List.mem_filter.2 ⟨hx, (ht _).2 hk⟩
    exact hb (x.path, x) (by rw [← h4]; exact List.mem_map.2 ⟨x, this, rfl⟩)
  · rintro ⟨a, b, rfl, hk, rfl, hb⟩
    refine ⟨(a.filter test).map fun e => (e.path, e), (b.filter test).map fun e => (e.path, e), ?_, ?_⟩
    · rw [List.filter_append, List.filter_cons, if_pos ((ht _).2 hk)]; simp
    · intro x hx
      obtain ⟨y, hy, rfl⟩ := List.mem_map.1 hx
      rw [List.mem_filter] at hy
      exact hb y hy.1 ((ht _).1 hy.2)

theorem traitsGo_ok {lib : TftLib} {d0 d : Dict Nat TraitData} {es : List BinEntry} (hes : ∀ e ∈ es, Spec.HasType lib.bin e "TftTraitData".toList)
    (h : traitsGo lib d0 es = .ok d) (p : Nat) :
    (∀ t, d.get? p = some t → (∃ e, Spec.EntryOf (Spec.IsTrait lib.bin) es p e ∧ Spec.TraitFrom lib.bin e.fields t) ∨
        (d0.get? p = some t ∧ ∀ e ∈ es, Spec.IsTrait lib.bin e → e.path ≠ p)) ∧
    ((∃ e ∈ es, Spec.IsTrait lib.bin e ∧ e.path = p) ∨ (∃ t, d0.get? p = some t) → ∃ t, d.get? p = some t) := by
  induction es generalizing d0 with
  | nil => cases h; exact ⟨fun t ht => .inr ⟨ht, by simp⟩, by rintro (⟨e, he, -⟩ | h); cases he; exact h⟩
  | cons e es ih =>
    unfold traitsGo at h
    simp only [bind, Except.bind] at h
    split at h
    · cases h
    rename_i b hb
    have hname : ∃ s, Spec.Gives e.fields "mName".toList (.value (.str s)) ∧ b = containsSub s "Template".toList := by
      unfold isTemplate at hb
      split at hb
      · rename_i s hs
        cases hb
        rw [fieldD_iff (by decide)] at hs
        rcases hs with hs | ⟨-, hs⟩
        · exact ⟨s, hs, rfl⟩
        · cases hs
      · cases hb
    obtain ⟨s, hs, rfl⟩ := hname
    have hiff : Spec.IsTrait lib.bin e ↔ containsSub s "Template".toList = false := by
      constructor
      · rintro ⟨-, s', hs', hn⟩
        have : s' = s := by
          have h1 := (fieldV_some (by decide) _).2 hs
          have h2 := (fieldV_some (by decide) _).2 hs'
          rw [h1] at h2; cases h2; rfl
        subst this
        rw [← containsSub_infix] at hn
        simpa using hn
      · intro hf
        refine ⟨hes e (by simp), s, hs, ?_⟩
        rw [← containsSub_infix, hf]; simp
    have hes' : ∀ e ∈ es, Spec.HasType lib.bin e "TftTraitData".toList := fun e he => hes e (by simp [he])
    split at h
    · rename_i hc
      have hnot : ¬ Spec.IsTrait lib.bin e := by rw [hiff, hc]; simp
      obtain ⟨h1, h2⟩ := ih hes' h
      constructor
      · intro t ht
        rcases h1 t ht with ⟨e', ⟨a, b, rfl, hk⟩, ht'⟩ | ⟨h3, h4⟩
        · exact .inl ⟨e', ⟨e :: a, b, rfl, hk⟩, ht'⟩
        · refine .inr ⟨h3, fun x hx hk => ?_⟩
          rcases List.mem_cons.1 hx with rfl | hx
          · exact absurd hk hnot
          · exact h4 x hx hk
      · rintro (⟨x, hx, hk, hp⟩ | h0)
        · rcases List.mem_cons.1 hx with rfl | hx
          · exact absurd hk hnot
          · exact h2 (.inl ⟨x, hx, hk, hp⟩)
        · exact h2 (.inr h0)
    · rename_i hc
      have his : Spec.IsTrait lib.bin e := hiff.2 (by simpa using hc)
      split at h
      · cases h
      rename_i t0 ht0
      obtain ⟨h1, h2⟩ := ih hes' h
      constructor
      · intro t ht
        rcases h1 t ht with ⟨e', ⟨a, b, rfl, hk⟩, ht'⟩ | ⟨h3, h4⟩
        · exact .inl ⟨e', ⟨e :: a, b, rfl, hk⟩, ht'⟩
        · rw [Dict.get?_set] at h3
          by_cases hp : p = e.path
          · subst hp
            rw [if_pos rfl] at h3
            cases h3
            exact .inl ⟨e, ⟨[], es, rfl, his, rfl, h4⟩, traitOf_ok ht0⟩
          · rw [if_neg hp] at h3
            refine .inr ⟨h3, fun x hx hk => ?_⟩
            rcases List.mem_cons.1 hx with rfl | hx
            · exact fun h => hp h.symm
            · exact h4 x hx hk
      · rintro (⟨x, hx, hk, hp⟩ | ⟨t, h0⟩)
        · rcases List.mem_cons.1 hx with rfl | hx
          · exact h2 (.inr ⟨t0, by rw [← hp, Dict.get?_set, if_pos rfl]⟩)
          · exact h2 (.inl ⟨x, hx, hk, hp⟩)
        · refine h2 (.inr ?_)
          rw [Dict.get?_set]
          split
          · exact ⟨t0, rfl⟩
          · exact ⟨t, h0⟩

theorem isTrait_type {env : BinEnv} {e : BinEntry} (h : Spec.IsTrait env e) : Spec.HasType env e "TftTraitData".toList := h.1

theorem entryAt_filter {kind : BinEntry → Prop} {test : BinEntry → Bool} (ht : ∀ e, kind e → test e = true) {entries : List BinEntry} {h : Nat} {e : BinEntry}
    (he : Spec.EntryOf kind (entries.filter test) h e) : Spec.EntryOf kind entries h e := by
  obtain ⟨a, b, he, hk, hp, hb⟩ := he
  rw [List.filter_eq_append_iff] at he
  obtain ⟨m1, m2, rfl, -, h5⟩ := he
  rw [List.filter_eq_cons_iff] at h5
  obtain ⟨m3, m4, rfl, h6, h7, h8⟩ := h5
  refine ⟨m1 ++ m3, m4, by simp, hk, hp, fun x hx hkx => hb x ?_ hkx⟩
  rw [← h8]; exact List.mem_filter.2 ⟨hx, ht x hkx⟩

theorem pathKey_iff (p : BinPy) (h : Nat) : pathKey p = some h ↔ Spec.IsPath p h := by
  constructor
  · intro hp
    unfold pathKey at hp
    split at hp
    · cases hp; exact .hashed _ _
    · split at hp
      · cases hp
      · cases hp
        rename_i n hn
        have : n = Int.ofNat n.toNat := (Int.toNat_of_nonneg (by omega)).symm
        rw [this]
        exact .int _
    · cases hp
  · rintro (⟨k, h⟩ | ⟨h⟩)
    · rfl
    · simp only [pathKey]
      rw [if_neg (by omega)]; rfl

theorem lookupPath_iff {V : Type} {d : Dict Nat V} (p : BinPy) (v : V) : lookupPath d p = some v ↔ ∃ h, Spec.IsPath p h ∧ d.get? h = some v := by
  unfold lookupPath
  rw [Option.bind_eq_some_iff]
  simp only [pathKey_iff]

theorem linksTo_iff {kind : BinEntry → Prop} {test : BinEntry → Bool} (ht : ∀ e, test e = true ↔ kind e) {entries : List BinEntry} {p : BinPy} {e : BinEntry} :
    lookupPath (Dict.ofList ((entries.filter test).map fun e => (e.path, e))) p = some e ↔ Spec.LinksTo kind entries p e := by
  rw [lookupPath_iff]
  simp only [entryAt_iff ht]
  rfl

theorem picks_filterMap {α β : Type} {R : α → β → Prop} {f : α → Option β} (hf : ∀ x y, f x = some y ↔ R x y) (l : List α) : Spec.Picks R l (l.filterMap f) := by
  induction l with
  | nil => exact .nil
  | cons x l ih =>
    rw [List.filterMap_cons]
    split
    · rename_i h
      exact .skip (fun y hy => by rw [(hf x y).2 hy] at h; cases h) ih
    · rename_i y h
      exact .keep ((hf x y).1 h) ih

theorem isTextKey_iff (key : Str) (v : BinValue) : isTextKey key v = true ↔ v = .str key := by
  cases v <;> simp [isTextKey]

theorem setName_iff (fields : List BinField) (n : BinPy) : setName (fieldD fields "ScriptData".toList .none) = .ok n ↔ Spec.SetName fields n := by
  have hk : ∀ v : BinValue, isTextKey "SetName".toList v = true ↔ v = .str "SetName".toList := isTextKey_iff _
  constructor
  · intro h
    generalize hd : fieldD fields "ScriptData".toList .none = q at h
    unfold setName at h
    split at h
    · split at h
      · rename_i p hp
        obtain ⟨h1, a, b, rfl, h2⟩ := List.find?_eq_some_iff_append.1 hp
        simp only [bind, Except.bind] at h
        split at h
        · cases h
        rename_i f hf
        cases h
        have hg := (fieldD_iff (by decide) _ _).1 hd
        rcases hg with hg | ⟨-, hg⟩
        · refine ⟨a, p, b, f, hg, (hk _).1 h1, fun y hy he => ?_, (fieldsOf_iff _ _).1 hf, (fieldD_iff (by decide) _ _).1 rfl⟩
          have := h2 y hy
          rw [(hk y.key).2 he] at this
          cases this
        · cases hg
      · cases h
    · cases h
  · rintro ⟨a, x, b, f, h1, h2, h3, h4, h5⟩
    rw [(fieldD_iff (by decide) _ _).2 (.inl h1)]
    have : (a ++ x :: b).find? (fun p => isTextKey "SetName".toList p.key) = some x := by
      rw [List.find?_eq_some_iff_append]
      refine ⟨(hk _).2 h2, a, b, rfl, fun y hy => ?_⟩
      have := mt (hk y.key).1 (h3 y hy)
      simpa using this
    simp only [setName]
    rw [this]
    simp only [bind, Except.bind]
    rw [(fieldsOf_iff _ _).2 h4, ← (fieldD_iff (by decide) _ _).2 h5]

theorem pyConcat_iff (fields : List BinField) (l : List BinValue) :
    pyConcat (fieldD fields "characterLists".toList (.list [])) (fieldD fields "tftCharacterLists".toList (.list [])) = .ok l ↔ Spec.CharacterLists fields l := by
  constructor
  · intro h
    generalize ha : fieldD fields "characterLists".toList (.list []) = p at h
    generalize hb : fieldD fields "tftCharacterLists".toList (.list []) = q at h
    unfold pyConcat at h
    split at h
    · cases h
      exact ⟨_, _, (fieldD_iff (by decide) _ _).1 ha, (fieldD_iff (by decide) _ _).1 hb, rfl⟩
    · cases h
  · rintro ⟨a, b, ha, hb, rfl⟩
    rw [(fieldD_iff (by decide) _ _).2 ha, (fieldD_iff (by decide) _ _).2 hb]
    rfl

theorem pyNone_iff (p : BinPy) : isNone p = true ↔ p = .none := by cases p <;> simp [isNone]

theorem gives_of_fieldD {fields : List BinField} {name : Str} (ha : Ascii name) {p : BinPy} (h : fieldD fields name .none = p) (hp : p ≠ .none) :
    Spec.Gives fields name p := by
  rcases (fieldD_iff ha _ _).1 h with h | ⟨-, h⟩
  · exact h
  · exact absurd h hp

theorem fieldD_of_gives {fields : List BinField} {name : Str} (ha : Ascii name) {d p : BinPy} (h : Spec.Gives fields name p) : fieldD fields name d = p :=
  (fieldD_iff ha _ _).2 (.inl h)

theorem sortedSet_lt (l : List Str) : (sortedSet l).Pairwise (· < ·) := by
  have h1 : (sortedSet l).Pairwise (· ≤ ·) := List.pairwise_insertionSort _ _
  have h2 : (sortedSet l).Nodup := (List.perm_insertionSort _ _).nodup_iff.2 l.nodup_dedup
  exact (h1.and h2).imp fun {a b} h => (List.le_iff_lt_or_eq.1 h.1).resolve_right h.2

theorem sortedNames_ok {l r : List BinPy} (h : sortedNames l = .ok r) : Spec.SortedNames r ∧ ∀ x, x ∈ r ↔ x ∈ l := by
  unfold sortedNames at h
  split at h
  · rename_i names hn
    cases h
    refine ⟨.inl ⟨_, rfl, sortedSet_lt names⟩, fun x => ?_⟩
    have hl : l = names.map fun s => .value (.str s) := by
      clear * - hn
      induction l generalizing names with
      | nil => cases hn; rfl
      | cons y l ih =>
        rw [List.mapM_cons] at hn
        rcases hy : nameText y with _ | s
        · rw [hy] at hn; cases hn
        rcases hr : l.mapM nameText with _ | ns
        · rw [hy, hr] at hn; cases hn
        rw [hy, hr] at hn
        cases hn
        rw [List.map_cons, ← ih ns hr]
        congr 1
        unfold nameText at hy
        split at hy <;> cases hy
        rfl
    rw [hl]
    simp only [List.mem_map, mem_sortedSet]
  · rename_i hn
    split at h
    · rename_i ha
      cases h
      refine ⟨.inr rfl, fun x => ?_⟩
      have hall : ∀ y ∈ l, y = .none := fun y hy => (pyNone_iff y).1 (List.all_eq_true.1 ha y hy)
      rw [List.mem_singleton]
      constructor
      · rintro rfl
        rcases l with _ | ⟨y, l⟩
        · cases hn
        · rw [hall y (by simp)]; simp
      · exact hall x
    · cases h

theorem characterList_iff (env : BinEnv) (e : BinEntry) :
    (isType env e "MapCharacterList".toList || isType env e "TftCharacterList".toList) = true ↔ Spec.IsCharacterList env e := by
  rw [Bool.or_eq_true, isType_iff (by decide), isType_iff (by decide)]; rfl

theorem listCharacters_ok {lib : TftLib} {entries : List BinEntry} {names : Dict Nat Str} {traits : Dict Nat TraitData} {v : BinValue} {part : List Str}
    (h : listCharacters (setTables lib entries names traits) (.value v) = .ok part) : Spec.ListCharacters lib.bin entries names v part := by
  unfold listCharacters at h
  have hl := fun e => linksTo_iff (characterList_iff lib.bin) (entries := entries) (p := .value v) (e := e)
  split at h
  · rename_i hn
    cases h
    refine .inr ⟨fun e he => ?_, rfl⟩
    have := (hl e).2 he
    unfold setTables at hn
    rw [hn] at this; cases this
  · rename_i e he
    simp only [bind, Except.bind] at h
    split at h
    · cases h
    rename_i items hi
    cases h
    refine .inl ⟨e, _, items, (hl e).1 he, gives_of_fieldD (by decide) rfl ?_, (iterPy_iff _ _).1 hi, picks_filterMap (fun x y => ?_) items⟩
    · intro hn; rw [hn] at hi; cases hi
    · rw [lookupPath_iff]; rfl

theorem mem_flatten_mapM {α β : Type} {f : α → Res (List β)} {l : List α} {r : List (List β)} (h : l.mapM f = .ok r) (y : β) :
    y ∈ r.flatten ↔ ∃ x ∈ l, ∃ part, f x = .ok part ∧ y ∈ part := by
  have h' := (mapM_eq_ok _ _ _).1 h
  rw [List.mem_flatten]
  constructor
  · rintro ⟨part, hp, hy⟩
    obtain ⟨x, hx, hf⟩ := forall₂_mem_right h' hp
    exact ⟨x, hx, part, hf, hy⟩
  · rintro ⟨x, hx, part, hf, hy⟩
    obtain ⟨q, hq, hf'⟩ := forall₂_mem_left h' hx
    rw [hf] at hf'
    cases hf'
    exact ⟨part, hq, hy⟩

theorem isTypeOf (env : BinEnv) {name : Str} (ha : Ascii name) (e : BinEntry) : isType env e name = true ↔ Spec.HasType env e name := isType_iff ha

theorem traitOfSet_iff {lib : TftLib} {entries : List BinEntry} {names : Dict Nat Str} {traits : Dict Nat TraitData} {fields : List BinField}
    {lists : BinPy} (hl : fieldD fields "TraitLists".toList .none = lists) (hne : lists ≠ .none) {links : List BinPy} (hi : iterPy lists = .ok links)
    {r : List (List BinPy)} (hr : links.mapM (listTraits (setTables lib entries names traits)) = .ok r) (h : Nat) :
    h ∈ r.flatten.filterMap pathKey ↔ Spec.TraitOfSet lib.bin entries fields h := by
  have hlink : ∀ p e, lookupPath (setTables lib entries names traits).traitLists p = some e ↔ Spec.LinksTo (fun e => Spec.HasType lib.bin e "TftTraitList".toList) entries p e :=
    fun p e => linksTo_iff (isTypeOf lib.bin (by decide))
  rw [List.mem_filterMap]
  simp only [mem_flatten_mapM hr, pathKey_iff]
  constructor
  · rintro ⟨q, ⟨p, hp, part, hpart, hq⟩, hh⟩
    unfold listTraits at hpart
    split at hpart
    · cases hpart; cases hq
    rename_i e he
    refine ⟨lists, links, p, e, _, part, q, gives_of_fieldD (by decide) hl hne, (iterPy_iff _ _).1 hi, hp, (hlink p e).1 he,
      gives_of_fieldD (by decide) rfl ?_, (iterPy_iff _ _).1 hpart, hq, hh⟩
    intro hn; rw [hn] at hpart; cases hpart
  · rintro ⟨lists', links', p, e, l, items, q, h1, h2, h3, h4, h5, h6, h7, h8⟩
    have : lists' = lists := by rw [← hl]; exact (fieldD_of_gives (by decide) h1).symm
    subst this
    have : links' = links := by have := (iterPy_iff _ _).2 h2; rw [hi] at this; cases this; rfl
    subst this
    refine ⟨q, ⟨p, h3, items, ?_, h7⟩, h8⟩
    unfold listTraits
    rw [(hlink p e).2 h4]
    show iterPy _ = _
    rw [fieldD_of_gives (by decide) h5]
    exact (iterPy_iff _ _).2 h6

theorem itemOfSet_iff {lib : TftLib} {entries : List BinEntry} {names : Dict Nat Str} {traits : Dict Nat TraitData} {fields : List BinField}
    {links : List BinPy} (hi : iterPy (fieldD fields "ItemLists".toList (.list [])) = .ok links)
    {r : List (List (Bool × BinPy))} (hr : links.mapM (listItems (setTables lib entries names traits)) = .ok r) (x : Bool × BinPy) :
    x ∈ r.flatten ↔ ∃ i, Spec.ItemOfSet lib.bin entries fields i ∧ (pyTruthy (fieldD i.fields "IsAugment".toList .none), fieldD i.fields "mName".toList .none) = x := by
  have hlink : ∀ p e, lookupPath (setTables lib entries names traits).itemLists p = some e ↔ Spec.LinksTo (fun e => Spec.HasType lib.bin e "TFTItemList".toList) entries p e :=
    fun p e => linksTo_iff (isTypeOf lib.bin (by decide))
  have hitem : ∀ p e, lookupPath (setTables lib entries names traits).items p = some e ↔ Spec.LinksTo (fun e => Spec.HasType lib.bin e "TftItemData".toList) entries p e :=
    fun p e => linksTo_iff (isTypeOf lib.bin (by decide))
  rw [mem_flatten_mapM hr]
  constructor
  · rintro ⟨p, hp, part, hpart, hx⟩
    unfold listItems at hpart
    split at hpart
    · cases hpart; cases hx
    rename_i e he
    simp only [bind, Except.bind] at hpart
    split at hpart
    · cases hpart
    rename_i items hit
    cases hpart
    rw [List.mem_map] at hx
    obtain ⟨i, hi', hx⟩ := hx
    obtain ⟨q, hq, hqi⟩ := List.mem_filterMap.1 hi'
    refine ⟨i, ⟨_, links, p, e, _, items, q, ?_, (iterPy_iff _ _).1 hi, hp, (hlink p e).1 he, ?_, (iterPy_iff _ _).1 hit, hq, (hitem q i).1 hqi⟩, hx⟩
    · rcases (fieldD_iff (fields := fields) (name := "ItemLists".toList) (by decide) (.list []) _).1 rfl with h | ⟨-, h⟩
      · exact h
      · rw [h] at hi; cases hi; cases hp
    · rcases (fieldD_iff (fields := e.fields) (name := "mItems".toList) (by decide) (.list []) _).1 rfl with h | ⟨-, h⟩
      · exact h
      · rw [h] at hit; cases hit; cases hq
  · rintro ⟨i, ⟨lists, links', p, e, l, items, q, h1, h2, h3, h4, h5, h6, h7, h8⟩, rfl⟩
    rw [fieldD_of_gives (by decide) h1] at hi
    have : links' = links := by have := (iterPy_iff _ _).2 h2; rw [hi] at this; cases this; rfl
    subst this
    refine ⟨p, h3, (items.filterMap (lookupPath (setTables lib entries names traits).items)).map fun i =>
      (pyTruthy (fieldD i.fields "IsAugment".toList .none), fieldD i.fields "mName".toList .none), ?_,
      List.mem_map.2 ⟨i, List.mem_filterMap.2 ⟨q, h7, (hitem q i).2 h8⟩, rfl⟩⟩
    unfold listItems
    rw [(hlink p e).2 h4]
    simp only [bind, Except.bind]
    rw [fieldD_of_gives (by decide) h5, (iterPy_iff _ _).2 h6]

theorem isAugment_iff (fields : List BinField) : pyTruthy (fieldD fields "IsAugment".toList .none) = true ↔ Spec.IsAugment fields := by
  constructor
  · intro h
    refine ⟨_, gives_of_fieldD (by decide) rfl ?_, fun hf => ?_⟩
    · intro hn; rw [hn] at h; cases h
    · rw [(pyTruthy_iff _).2 hf] at h; cases h
  · rintro ⟨p, hp, hf⟩
    rw [fieldD_of_gives (by decide) hp]
    rw [← pyTruthy_iff] at hf
    simpa using hf

theorem traitAt_iff {traits : Dict Nat TraitData} {a h : Nat} {t : TraitData} : traitAt traits a = some (h, t) ↔ a = h ∧ traits.get? h = some t := by
  unfold traitAt
  split
  · rename_i x hx
    rw [Option.some.injEq, Prod.mk.injEq]
    constructor
    · rintro ⟨rfl, rfl⟩; exact ⟨rfl, hx⟩
    · rintro ⟨rfl, ht⟩; rw [hx] at ht; cases ht; exact ⟨rfl, rfl⟩
  · rename_i hx
    constructor
    · intro h; cases h
    · rintro ⟨rfl, ht⟩; rw [hx] at ht; cases ht

theorem traitAt_fst (traits : Dict Nat TraitData) (l : List Nat) : (l.filterMap (traitAt traits)).map Prod.fst = l.filter fun h => (traits.get? h).isSome := by
  induction l with
  | nil => rfl
  | cons a l ih =>
    rcases h : traits.get? a with _ | t
    · rw [List.filter_cons_of_neg (by simp [h]), List.filterMap_cons_none (by unfold traitAt; rw [h])]; exact ih
    · rw [List.filter_cons_of_pos (by simp [h]), List.filterMap_cons_some (by unfold traitAt; rw [h]), List.map_cons, ih]

theorem setOf_ok {lib : TftLib} {entries : List BinEntry} {names : Dict Nat Str} {traits : Dict Nat TraitData} {order : List Nat → List Nat}
    (ho : ∀ l, (order l).Perm l) {fields : List BinField} {o : Option SetDef} (h : setOf (setTables lib entries names traits) order fields = .ok o) :
    (Spec.UsedSet fields ∧ ∃ s, o = some s ∧ Spec.SetFrom lib.bin entries names traits fields s) ∨ (¬ Spec.UsedSet fields ∧ o = none) := by
  unfold setOf at h
  simp only [bind, Except.bind] at h
  split at h
  · cases h
  rename_i charLists hc
  rw [pyConcat_iff] at hc
  have hcu : ∀ l, Spec.CharacterLists fields l → l = charLists := by
    intro l hl
    rw [← pyConcat_iff] at hl hc
    rw [hc] at hl; cases hl; rfl
  split at h
  · rename_i he
    cases h
    refine .inr ⟨?_, rfl⟩
    rintro ⟨⟨l, hl, hne⟩, -⟩
    rw [hcu l hl] at hne
    exact hne (by simpa using he)
  rename_i he
  split at h
  · rename_i ht
    cases h
    refine .inr ⟨?_, rfl⟩
    rintro ⟨-, ⟨p, hp, hne⟩, -⟩
    rw [fieldD_of_gives (by decide) hp, pyNone_iff] at ht
    exact hne ht
  rename_i ht
  rw [pyNone_iff] at ht
  split at h
  · cases h
  rename_i name hn
  rw [setName_iff] at hn
  split at h
  · rename_i hnn
    cases h
    refine .inr ⟨?_, rfl⟩
    rintro ⟨-, -, ⟨p, hp, hne⟩, ⟨q, hq, hne'⟩⟩
    rw [fieldD_of_gives (by decide) hp, Bool.or_eq_true, pyNone_iff, pyNone_iff] at hnn
    rcases hnn with hnn | hnn
    · exact hne hnn
    · rw [← setName_iff] at hq hn
      rw [hn] at hq
      cases hq
      exact hne' hnn
  rename_i hnn
  rw [Bool.or_eq_true, pyNone_iff, pyNone_iff, not_or] at hnn
  split at h
  · cases h
  rename_i chars hchars
  split at h
  · cases h
  rename_i links hlinks
  split at h
  · cases h
  rename_i tr htr
  split at h
  · cases h
  rename_i ilinks hil
  split at h
  · cases h
  rename_i items hitems
  split at h
  · cases h
  rename_i augments haug
  split at h
  · cases h
  rename_i others hoth
  cases h
  have hnum := gives_of_fieldD (fields := fields) (name := "number".toList) (by decide) rfl hnn.1
  refine .inl ⟨⟨⟨charLists, hc, by simpa using he⟩, ⟨_, gives_of_fieldD (by decide) rfl ht, ht⟩, ⟨_, hnum, hnn.1⟩, ⟨name, hn, hnn.2⟩⟩, _, rfl, ?_⟩
  obtain ⟨hs1, hm1⟩ := sortedNames_ok haug
  obtain ⟨hs2, hm2⟩ := sortedNames_ok hoth
  refine ⟨hnum, ?_, hn, ?_, ?_, ?_, ?_, ?_, hs1, hs2⟩
  · refine ⟨_, (fieldD_iff (by decide) _ _).1 rfl, ?_⟩
    by_cases hm : fieldD fields "Mutator".toList .none = .none
    · refine .inr ⟨hm, (fieldD_iff (by decide) _ _).1 ?_⟩
      simp only [(pyNone_iff _).2 hm, if_true]
    · refine .inl ⟨hm, ?_⟩
      rw [← pyNone_iff] at hm
      simp only [if_neg hm]
  · refine ⟨charLists, chars, hc, ?_, rfl⟩
    have := (mapM_eq_ok _ _ _).1 hchars
    rw [List.forall₂_map_left_iff] at this
    exact this.imp fun _ _ h => listCharacters_ok h
  · have hp := ho (tr.flatten.filterMap pathKey).dedup
    intro h t
    rw [List.mem_filterMap]
    simp only [traitAt_iff, hp.mem_iff, List.mem_dedup, traitOfSet_iff rfl ht hlinks htr]
    exact ⟨fun ⟨a, h1, h2, h3⟩ => h2 ▸ ⟨h1, h2 ▸ h3⟩, fun ⟨h1, h2⟩ => ⟨h, h1, rfl, h2⟩⟩
  · rw [traitAt_fst]
    exact ((ho _).nodup_iff.2 (List.nodup_dedup _)).filter _
  · intro x
    rw [hm1, List.mem_map]
    simp only [List.mem_filter, itemOfSet_iff hil hitems]
    constructor
    · rintro ⟨y, ⟨⟨i, hi, rfl⟩, hb⟩, rfl⟩
      exact ⟨i, hi, (isAugment_iff _).1 hb, (fieldD_iff (by decide) _ _).1 rfl⟩
    · rintro ⟨i, hi, hb, hx⟩
      exact ⟨_, ⟨⟨i, hi, rfl⟩, (isAugment_iff _).2 hb⟩, (fieldD_iff (by decide) _ _).2 hx⟩
  · intro x
    rw [hm2, List.mem_map]
    simp only [List.mem_filter, itemOfSet_iff hil hitems]
    constructor
    · rintro ⟨y, ⟨⟨i, hi, rfl⟩, hb⟩, rfl⟩
      refine ⟨i, hi, ?_, (fieldD_iff (by decide) _ _).1 rfl⟩
      intro ha
      simp only [(isAugment_iff _).2 ha] at hb
      cases hb
    · rintro ⟨i, hi, hb, hx⟩
      refine ⟨_, ⟨⟨i, hi, rfl⟩, ?_⟩, (fieldD_iff (by decide) _ _).2 hx⟩
      rw [← isAugment_iff] at hb
      simpa using hb

open Classical in
theorem setsGo_ok {lib : TftLib} {entries : List BinEntry} {names : Dict Nat Str} {traits : Dict Nat TraitData} {order : List Nat → List Nat}
    (ho : ∀ l, (order l).Perm l) {es : List BinEntry} {r : List SetDef} (h : setsGo (setTables lib entries names traits) order es = .ok r) :
    List.Forall₂ (fun e s => Spec.SetFrom lib.bin entries names traits e.fields s) (es.filter fun e => decide (Spec.UsedSet e.fields)) r := by
  induction es generalizing r with
  | nil => cases h; exact .nil
  | cons e es ih =>
    unfold setsGo at h
    simp only [bind, Except.bind] at h
    split at h
    · cases h
    rename_i o ho'
    split at h
    · cases h
    rename_i ss hss
    cases h
    rcases setOf_ok ho ho' with ⟨hu, s, rfl, hs⟩ | ⟨hu, rfl⟩
    · rw [List.filter_cons_of_pos (by simpa using hu)]
      exact .cons hs (ih hss)
    · rw [List.filter_cons_of_neg (by simpa using hu)]
      exact ih hss

end Cdtb
