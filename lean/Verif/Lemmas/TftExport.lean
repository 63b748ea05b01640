import Verif.Spec.TftExport
import Verif.Props.C72
import Verif.Props.C73
/-! # Lemmas: files of TFT data -/
namespace Cdtb
set_option autoImplicit false
open Py Spec

theorem Dict.values_idxOf {K V : Type} [DecidableEq K] [BEq K] [LawfulBEq K] (d : Dict K V) (k : K) : d.values[d.keys.idxOf k]? = d.get? k := by
  induction d with
  | nil => rfl
  | cons x d ih =>
    obtain ⟨k', v⟩ := x
    simp only [Dict.values, Dict.keys, List.map_cons, List.idxOf_cons, Dict.get?] at ih ⊢
    by_cases h : k' = k
    · simp [h]
    · have : (k' == k) = false := by simpa using h
      simp only [this, cond_false, List.getElem?_cons_succ, if_neg h]
      exact ih

theorem forall₂_getElem? {α β : Type} {R : α → β → Prop} {l : List α} {m : List β} (h : List.Forall₂ R l m) {i : Nat} {x : α} (hx : l[i]? = some x) :
    ∃ y, m[i]? = some y ∧ R x y := by
  induction h generalizing i with
  | nil => cases hx
  | cons h _ ih =>
    cases i with
    | zero => cases hx; exact ⟨_, rfl, h⟩
    | succ i => exact ih hx

theorem champRefs_iff (champs : Dict Str ChampData) (n : Str) (r : Nat) :
    (champRefs champs).get? n = some r ↔ n ∈ champs.keys ∧ r = champs.keys.idxOf n := by
  unfold champRefs
  have key : ∀ (g : Str → Nat) (l : List Str), Dict.get? (l.map fun n => (n, g n)) n = some r ↔ n ∈ l ∧ r = g n := by
    intro g l
    induction l with
    | nil => simp [Dict.get?]
    | cons m l ih =>
      rw [List.map_cons, Dict.get?, List.mem_cons]
      by_cases h : m = n
      · subst h; simp [eq_comm]
      · rw [if_neg h, ih]
        simp [Ne.symm h]
  exact key _ _

theorem textValue_of {p : BinPy} {o : Option Str} (h : optText p = .ok o) : Spec.TextValue p o := by
  unfold optText at h
  split at h <;> cases h
  · exact .inl ⟨_, rfl, rfl⟩
  · exact .inr ⟨rfl, rfl⟩

theorem traitObject_ok {t : TraitData} {o : TftTrait TftPart} (h : traitObject t = .ok o) : Spec.TraitShown t o := by
  unfold traitObject at h
  simp only [bind, Except.bind] at h
  split at h
  · cases h
  rename_i n hn
  split at h
  · cases h
  rename_i d hd
  cases h
  exact ⟨textValue_of hn, textValue_of hd, rfl⟩

theorem champObject_ok {c : ChampData} {o : TftChamp TftPart} (h : champObject c = .ok o) : Spec.ChampShown c o := by
  unfold champObject at h
  simp only [bind, Except.bind] at h
  split at h
  · cases h
  rename_i n hn
  split at h
  · cases h
  rename_i tr htr
  split at h
  · cases h
  rename_i an han
  split at h
  · cases h
  rename_i ad had
  cases h
  exact ⟨textValue_of hn, ((mapM_eq_ok _ _ _).1 htr).imp fun _ _ h => textValue_of h, textValue_of han, textValue_of had, rfl⟩

theorem textRes_all {l : List BinPy} {r : List Str} (h : l.mapM textRes = .ok r) : l = r.map fun x => .value (.str x) := by
  replace h := (mapM_eq_ok _ _ _).1 h
  induction h with
  | nil => rfl
  | cons h _ ih =>
    rw [List.map_cons, ← ih]
    unfold textRes at h
    split at h <;> cases h
    rfl

theorem intRes_ok {p : BinPy} {n : Int} (h : intRes p = .ok n) : p = .value (.int n) := by
  unfold intRes at h
  split at h <;> cases h
  rfl

theorem templateOf_ok {traits : Dict Nat TraitData} {sets : List SetDef} {champs : Dict Str ChampData} {items : List (TftItem ItemData)} {t : TftTemplate TftPart}
    (h : templateOf traits sets champs items = .ok t) :
    Spec.TemplateFrom traits sets champs items (traits.keys.idxOf ·) (champs.keys.idxOf ·) t := by
  unfold templateOf at h
  simp only [bind, Except.bind] at h
  split at h
  · cases h
  rename_i tos hto
  split at h
  · cases h
  rename_i co hco
  split at h
  · cases h
  rename_i so hso
  cases h
  have hto := (mapM_eq_ok _ _ _).1 hto
  have hco := (mapM_eq_ok _ _ _).1 hco
  have hso := (mapM_eq_ok _ _ _).1 hso
  refine ⟨fun h x hx => ?_, fun h hh h' hh' e => (List.idxOf_inj hh).1 e, fun n c hc => ?_, fun h hh h' hh' e => (List.idxOf_inj hh).1 e, ?_, ?_, ?_⟩
  · rw [← Dict.values_idxOf] at hx
    obtain ⟨o, ho, hxo⟩ := forall₂_getElem? hto hx
    exact ⟨o, ho, traitObject_ok hxo⟩
  · rw [← Dict.values_idxOf] at hc
    obtain ⟨o, ho, hxo⟩ := forall₂_getElem? hco hc
    exact ⟨o, ho, champObject_ok hxo⟩
  · rw [buildOutputSets, outputSetsGo_eq]
    simp only [List.nil_append, List.forall₂_map_right_iff]
    refine hso.imp fun s d hd => ?_
    unfold setObject at hd
    simp only [bind, Except.bind] at hd
    split at hd
    · cases hd
    rename_i number hnumber
    split at hd
    · cases hd
    rename_i mutator hmutator
    split at hd
    · cases hd
    rename_i name hname
    split at hd
    · cases hd
    rename_i augments haugments
    split at hd
    · cases hd
    rename_i its hits
    cases hd
    exact ⟨intRes_ok hnumber, textValue_of hmutator, textValue_of hname, rfl, picks_filterMap (champRefs_iff champs) _, textRes_all haugments, textRes_all hits⟩
  · exact C54_sets so (champRefs champs)
  · rw [List.forall₂_map_right_iff, List.forall₂_same]
    exact fun i _ => ⟨rfl, rfl, rfl, rfl, rfl, rfl, rfl, rfl, rfl⟩

/-! ## Reading after the creation of directories -/

theorem champEntry_dirs {lib : TftLib} {fs fs1 : FS} {input : Str} {traits : Dict Nat TraitData} {roles : Dict Nat BinEntry} {champ : List BinField}
    (hd : ∀ q, fs1 q = fs q ∨ (fs q = none ∧ fs1 q = some .dir)) {o : Option (Str × ChampData)} (h : champEntry lib fs1 input traits roles champ = .ok o) :
    champEntry lib fs input traits roles champ = .ok o := by
  unfold champEntry at h ⊢
  simp only [bind, Except.bind] at h ⊢
  split at h
  · cases h
  rename_i name hname
  split at h
  · rename_i ht; rw [if_pos ht]; exact h
  rename_i ht
  rw [if_neg ht]
  have hn : ∀ q, fs1 q = none → fs q = none := fun q hq => by
    rcases hd q with h | ⟨h, -⟩
    · rw [← h]; exact hq
    · exact h
  have hf : ∀ q b, fs1 q = some (.file b) → fs q = some (.file b) := fun q b hq => by
    rcases hd q with h | ⟨-, h⟩
    · rw [← h]; exact hq
    · rw [hq] at h; cases h
  unfold champFile at h ⊢
  simp only at h ⊢
  generalize pjoin (pjoin input "characters".toList) (name ++ ".cdtb.bin".toList) = own at h ⊢
  generalize pjoin (pjoin (pjoin input "data/characters".toList) name) (name ++ ".bin".toList) = common at h ⊢
  have hread : ∀ (p : Str), (∀ e, fs1.readFile p ≠ .error e) → (fs1 p).isSome = true → fs.readFile p = fs1.readFile p ∧ (fs p).isSome = true := by
    intro p he _
    rcases hr : fs1.readFile p with e | b
    · exact absurd hr (he e)
    · have := hf p b (readFile_iff.1 hr)
      exact ⟨readFile_iff.2 this, by rw [this]; rfl⟩
  by_cases h1 : (fs1 own).isSome = true
  · rw [if_pos h1] at h
    simp only at h
    obtain ⟨h2, h3⟩ := hread own (fun e he => by rw [he] at h; cases h) h1
    rw [if_pos h3]
    simp only [h2]
    exact h
  · rw [if_neg h1] at h
    have h1' : fs own = none := hn own (by simpa using h1)
    rw [if_neg (by simp [h1'])]
    by_cases h4 : (fs1 common).isSome = true
    · rw [if_pos h4] at h
      simp only at h
      obtain ⟨h2, h3⟩ := hread common (fun e he => by rw [he] at h; cases h) h4
      rw [if_pos h3]
      simp only [h2]
      exact h
    · rw [if_neg h4] at h
      have h4' : fs common = none := hn common (by simpa using h4)
      rw [if_neg (by simp [h4'])]
      exact h

theorem parseChamps_dirs {lib : TftLib} {fs fs1 : FS} {input : Str} {traits : Dict Nat TraitData} {entries : List BinEntry}
    (hd : ∀ q, fs1 q = fs q ∨ (fs q = none ∧ fs1 q = some .dir)) {d : Dict Str ChampData} (h : parseChamps lib fs1 input entries traits = .ok d) :
    parseChamps lib fs input entries traits = .ok d := by
  unfold parseChamps at h ⊢
  generalize (entries.filter fun e => isType lib.bin e "TftShopData".toList) = es at h ⊢
  generalize ([] : Dict Str ChampData) = d0 at h ⊢
  induction es generalizing d0 with
  | nil => exact h
  | cons e es ih =>
    unfold champsGo at h ⊢
    simp only [bind, Except.bind] at h ⊢
    split at h
    · cases h
    rename_i c hc
    rw [champEntry_dirs hd hc]
    exact ih _ h

theorem tftTemplate_ok {lib : TftLib} {order : List Nat → List Nat} (ho : ∀ l, (order l).Perm l) {fs fs1 : FS} {input : Str}
    (hd : ∀ q, fs1 q = fs q ∨ (fs q = none ∧ fs1 q = some .dir)) {t : TftTemplate TftPart} (h : tftTemplate lib order fs1 input = .ok t) :
    Spec.TftData lib fs input t := by
  unfold tftTemplate at h
  simp only [bind, Except.bind] at h
  split at h
  · cases h
  rename_i data hdata
  split at h
  · cases h
  rename_i bin hbin
  split at h
  · cases h
  rename_i names hnames
  split at h
  · cases h
  rename_i traits htraits
  split at h
  · cases h
  rename_i sets hsets
  split at h
  · cases h
  rename_i champs hchamps
  split at h
  · cases h
  rename_i items hitems
  refine ⟨data, bin, names, traits, sets, champs, items, _, _, ?_, hbin, ?_, templateOf_ok h⟩
  · have := readFile_iff.1 hdata
    unfold map22Path at this
    rcases hd (pjoin input "data/maps/shipping/map22/map22.bin".toList) with h | ⟨-, h⟩
    · rw [← h]; exact this
    · rw [this] at h; cases h
  · exact ⟨C73_names lib _ _ hnames, fun p => (C73_traits lib _ _ htraits p).1, fun e he hk => (C73_traits lib _ _ htraits e.path).2 ⟨e, he, hk, rfl⟩,
      C73_sets lib order ho _ _ _ _ hsets, C73_champs lib fs input _ _ _ (parseChamps_dirs hd hchamps), C73_items lib _ _ hitems⟩

/-! ## Translation -/

theorem tr_eq_retext (env : RstEnv) (t : TrTable) : t.tr env = Spec.retext (Spec.tableText env t) := by
  funext v
  cases t with
  | text d =>
    cases v with
    | none => rfl
    | some s => simp only [TrTable.tr, Spec.retext, Spec.tableText, Option.map_some]; cases d.get? s <;> rfl
  | rst r =>
    cases v with
    | none => simp [TrTable.tr, Spec.retext, Rst.hasKey, keyToHash]
    | some s =>
      rw [(C54_rst_table env r s).1]
      simp only [Spec.retext, Spec.tableText, Rst.getD, Rst.getitem, Option.map_some]
      rcases hk : keyToHash env (.str s) r.hashBits r.gameVersion with e | h
      · rfl
      · simp only; rcases hh : r.entries.get? h with _ | x <;> rfl

theorem tft_translated (env : RstEnv) (table : TrTable) (t : TftTemplate TftPart) :
    Spec.TftTranslated (Spec.tableText env table) t (t.translate (table.tr env)) := by
  rw [tr_eq_retext]
  exact ⟨C54_traits _ t, C54_champions _ t, (C54_rest _ t).2.1, (C54_rest _ t).2.2.1, (C54_rest _ t).1⟩

theorem tftTable_ok {lib : TftOutLib} {version : Nat} {tables : Dict Str Str} {fs : FS} {lang : Str} {t : TrTable}
    (h : tftTable lib version tables fs lang = .ok t) : ∃ path data, tables.get? lang = some path ∧ fs path = some (.file data) ∧
      loadTranslations lib.rst version data = .ok t := by
  unfold tftTable at h
  split at h
  · cases h
  · rename_i path hp
    rcases hd : fs.readFile path with e | data
    · rw [hd] at h; cases h
    · rw [hd] at h
      exact ⟨path, data, hp, readFile_iff.1 hd, h⟩

/-- The loop on languages -/
theorem tftLangs_spec {lib : TftOutLib} {version : Nat} {tables : Dict Str Str} {t : TftTemplate TftPart} {output : Str} {f : Nat → WriteFaults} {fs0 : FS}
    {langs : List Str} (i : Nat) (fs : FS) (hnd : langs.Nodup) (hs : ∀ l ∈ langs, '/' ∉ l)
    (hsep : ∀ l ∈ langs, ∀ l' path, tables.get? l' = some path → Spec.langFile output l ≠ path)
    (hfs : ∀ l path b, tables.get? l = some path → fs path = some (.file b) → fs0 path = some (.file b)) :
    (∀ q, (∀ l ∈ langs, q ≠ Spec.langFile output l) → (tftLangs lib version tables t output f i fs langs).1 q = fs q) ∧
    (((tftLangs lib version tables t output f i fs langs).2 = .ok () ∧
        ∀ l ∈ langs, Spec.TftLangComplete lib version tables fs0 t output (tftLangs lib version tables t output f i fs langs).1 l) ∨
     ∃ e a l b, (tftLangs lib version tables t output f i fs langs).2 = .error e ∧ langs = a ++ l :: b ∧
        (∀ x ∈ a, Spec.TftLangComplete lib version tables fs0 t output (tftLangs lib version tables t output f i fs langs).1 x) ∧
        ∀ x ∈ b, (tftLangs lib version tables t output f i fs langs).1 (Spec.langFile output x) = fs (Spec.langFile output x)) := by
  induction langs generalizing i fs with
  | nil => exact ⟨fun _ _ => rfl, .inl ⟨rfl, fun l hl => absurd hl (by simp)⟩⟩
  | cons lang langs ih =>
    rw [List.nodup_cons] at hnd
    unfold tftLangs
    rcases ht : tftTable lib version tables fs lang with e | r
    · exact ⟨fun _ _ => rfl, .inr ⟨e, [], lang, langs, rfl, rfl, fun x hx => absurd hx (by simp), fun _ _ => rfl⟩⟩
    simp only
    generalize hb : lib.json (t.translate (r.tr lib.rst)) = body
    have hw := openAndWrite_ok (fs := fs) (p := pjoin output (lang ++ ".json".toList)) (body := body) (f := f i)
    have ho := fun q => openAndWrite_other fs (p := pjoin output (lang ++ ".json".toList)) (q := q) body (f i)
    have hne : ∀ x ∈ langs, Spec.langFile output x ≠ Spec.langFile output lang := fun x hx h =>
      hnd.1 (by rw [← langFile_inj (hs x (by simp [hx])) (hs lang (by simp)) h]; exact hx)
    rcases hr : openAndWrite fs (pjoin output (lang ++ ".json".toList)) body (f i) with ⟨fs', e | u⟩
    · rw [hr] at ho
      exact ⟨fun q hq => ho q (hq lang (by simp)), .inr ⟨e, [], lang, langs, rfl, rfl, fun x hx => absurd hx (by simp), fun x hx => ho _ (hne x hx)⟩⟩
    rw [hr] at ho hw
    obtain ⟨hw1, hw2⟩ := hw rfl
    have hs' : ∀ l ∈ langs, '/' ∉ l := fun l hl => hs l (by simp [hl])
    have hfs' : ∀ l path b, tables.get? l = some path → fs' path = some (.file b) → fs0 path = some (.file b) := by
      intro l path b hl hp
      refine hfs l path b hl ?_
      rw [← ho path (hsep lang (by simp) l path hl).symm]; exact hp
    obtain ⟨h1, h2⟩ := ih (i + 1) fs' hnd.2 hs' (fun l hl => hsep l (by simp [hl])) hfs'
    cases u
    simp only
    generalize tftLangs lib version tables t output f (i + 1) fs' langs = R at h1 h2
    have hdone : Spec.TftLangComplete lib version tables fs0 t output R.1 lang := by
      obtain ⟨path, data, p1, p2, p3⟩ := tftTable_ok ht
      refine ⟨path, data, r, _, p1, hfs lang path data p1 p2, p3, tft_translated _ _ _, by rw [hb]; exact hw1, ?_⟩
      rw [hb]
      exact (h1 _ fun l hl => (hne l hl).symm).trans hw2
    refine ⟨fun q hq => ?_, ?_⟩
    · rw [h1 q fun l hl => hq l (by simp [hl])]
      exact ho q (hq lang (by simp))
    · rcases h2 with ⟨h2, h3⟩ | ⟨e, a, l, b, h2, rfl, h3, h4⟩
      · refine .inl ⟨h2, fun l hl => ?_⟩
        rcases List.mem_cons.1 hl with rfl | hl
        · exact hdone
        · exact h3 l hl
      · refine .inr ⟨e, lang :: a, l, b, h2, rfl, fun x hx => ?_, fun x hx => ?_⟩
        · rcases List.mem_cons.1 hx with rfl | hx
          · exact hdone
          · exact h3 x hx
        · rw [h4 x hx]
          exact ho _ (hne x (by simp [hx]))

end Cdtb
