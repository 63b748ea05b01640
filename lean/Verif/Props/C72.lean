import Verif.Lemmas.PyData
import Verif.Lemmas.Path
import Verif.Lemmas.Patches
import Verif.Lemmas.Arena
import Verif.Lemmas.ExportFiles
import Verif.Lemmas.FS
import Verif.Props.C66
import Verif.Props.C69
/-! # C72: string tables by language, data of Arena -/
namespace Cdtb
set_option autoImplicit false
open Py Spec

theorem searchLang_ok (pre suffix start lang : Str) (hl : Spec.LangName lang) (hc : Spec.CleanName lang)
    (hp : endsWith (start.map fun c => if c = '\\' then '/' else c) pre = true) : searchLang pre suffix (start ++ lang ++ suffix) = .ok lang := by
  obtain ⟨a, b, c, d, rfl⟩ := hl
  obtain ⟨-, h1, h2⟩ := hc
  have hmap : ∀ x ∈ [a, b, '_', c, d], (if x = '\\' then '/' else x) = x := by
    intro x hx
    rw [if_neg]
    rintro rfl
    exact h1 hx
  have e1 : (start ++ [a, b, '_', c, d] ++ suffix).map (fun c => if c = '\\' then '/' else c) =
      start.map (fun c => if c = '\\' then '/' else c) ++ [a, b, '_', c, d] ++ suffix.map (fun c => if c = '\\' then '/' else c) := by
    rw [List.map_append, List.map_append]
    congr 2
    rw [List.map_congr_left hmap, List.map_id']
  unfold searchLang
  rw [e1]
  generalize hS : start.map (fun c => if c = '\\' then '/' else c) = S at hp
  generalize hT : suffix.map (fun c => if c = '\\' then '/' else c) = T
  have hTl : T.length = suffix.length := by rw [← hT, List.length_map]
  have e2 : (S ++ [a, b, '_', c, d] ++ T).take ((S ++ [a, b, '_', c, d] ++ T).length - suffix.length) = S ++ [a, b, '_', c, d] := by
    rw [← hTl]
    have : (S ++ [a, b, '_', c, d] ++ T).length - T.length = (S ++ [a, b, '_', c, d]).length := by
      simp only [List.length_append]; omega
    rw [this, List.take_left]
  have e3 : (S ++ [a, b, '_', c, d]).length - 5 = S.length := by simp
  simp only [e2, e3, List.drop_left, List.take_left, hp, and_true]
  simp only [List.mem_cons, List.not_mem_nil, or_false, not_or] at h2
  rw [if_pos]
  exact ⟨trivial, Ne.symm h2.1, Ne.symm h2.2.1, Ne.symm h2.2.2.2.1, Ne.symm h2.2.2.2.2⟩

theorem langDict_ok (pre suffix : Str) (l : List (Str × Str)) (h : ∀ x ∈ l, searchLang pre suffix x.2 = .ok x.1) :
    langDict pre suffix (l.map (·.2)) = .ok (Dict.ofList l) := by
  have hm : (l.map (·.2)).mapM (searchLang pre suffix) = .ok (l.map (·.1)) := by
    induction l with
    | nil => rfl
    | cons x l ih =>
      have h1 := h x (by simp)
      have h2 := ih fun y hy => h y (by simp [hy])
      simp only [List.map_cons, List.mapM_cons, h1, h2, bind, Except.bind, pure, Except.pure]
  unfold langDict
  rw [hm]
  simp only [bind, Except.bind]
  rw [← List.unzip_fst, ← List.unzip_snd, List.zip_unzip]

theorem ofList_graph {l : List (Str × Str)} {g : Str → Str} (h : ∀ x ∈ l, x.2 = g x.1) (k v : Str) :
    (Dict.ofList l).get? k = some v ↔ (k, v) ∈ l := by
  rw [ofList_get?_iff]
  constructor
  · rintro ⟨a, b, rfl, -⟩; simp
  · intro hm
    cases hg : (Dict.ofList l).get? k with
    | none =>
      have hk : k ∈ (Dict.ofList l).keys := (Dict.mem_keys_ofList l k).2 (List.mem_map.2 ⟨_, hm, rfl⟩)
      rw [← Dict.get?_isSome, hg] at hk
      cases hk
    | some v' =>
      obtain ⟨a, b, e, hb⟩ := (ofList_get?_iff _ _ _).1 hg
      have h1 := h (k, v') (by rw [e]; simp)
      have h2 := h _ hm
      simp only at h1 h2
      rw [h2, ← h1]
      exact ⟨a, b, e, hb⟩


theorem ofList_isEmpty (l : List (Str × Str)) : (Dict.ofList l).isEmpty = l.isEmpty := by
  have h := fun k => Dict.mem_keys_ofList l k
  cases l with
  | nil => rfl
  | cons x l =>
    have h1 := (h x.1).2 (by simp)
    cases hd : Dict.ofList (x :: l) with
    | nil => rw [hd] at h1; cases h1
    | cons y d => rfl

/-- Directories of languages, with the path of the string table -/
def dirEntries (fs : FS) (ls : Str → List Str) (base suffix : Str) : List (Str × Str) :=
  ((ls base).filter fun n => globLang n && decide (fs (pjoin base n) = some .dir) && (fs (pjoin base (n ++ suffix))).isSome).map fun n =>
    (n, pjoin base (n ++ suffix))

/-- Files of languages -/
def fileEntries (ls : Str → List Str) (base pre suffix : Str) : List (Str × Str) :=
  ((ls (pjoin base "data/menu".toList)).filter fun n => startsWith n pre && endsWith n suffix && decide (n.length = pre.length + 5 + suffix.length) &&
    decide (n[pre.length + 2]? = some '_')).map fun n => ((n.drop pre.length).take 5, pjoin base "data/menu".toList ++ '/' :: n)

theorem globLang_iff {n : Str} : globLang n = true ↔ Spec.LangName n ∧ n.head? ≠ some '.' := by
  unfold globLang Spec.LangName
  split
  · rename_i a b c d e
    simp only [decide_eq_true_eq, List.cons.injEq, and_true, List.head?_cons, Option.some.injEq, ne_eq]
    constructor
    · rintro ⟨h1, rfl⟩; exact ⟨⟨a, b, d, e, rfl, rfl, rfl, rfl, rfl⟩, h1⟩
    · rintro ⟨⟨_, _, _, _, rfl, rfl, rfl, rfl, rfl⟩, h1⟩; exact ⟨h1, rfl⟩
  · rename_i h
    simp only [Bool.false_eq_true, false_iff, not_and]
    rintro ⟨a, b, c, d, rfl⟩
    exact absurd rfl (h a b '_' c d)

theorem pjoin_plain {base n : Str} (h1 : base ≠ []) (h2 : endsWith base ['/'] = false) (h3 : n.head? ≠ some '/') : pjoin base n = base ++ '/' :: n := by
  unfold pjoin
  rw [if_neg, if_neg]
  · simp
  · cases base with
    | nil => exact absurd rfl h1
    | cons => simp [h2]
  · intro h
    obtain ⟨t, rfl⟩ := startsWith_iff.1 h
    exact h3 rfl

theorem clean_head {n : Str} (h : Spec.CleanName n) (x : Str) (hn : n ≠ []) : (n ++ x).head? ≠ some '/' := by
  cases n with
  | nil => exact absurd rfl hn
  | cons c n => intro e; simp only [List.cons_append, List.head?_cons, Option.some.injEq] at e; subst e; exact h.1 (by simp)

theorem LangName.ne {n : Str} (h : Spec.LangName n) : n ≠ [] := by
  obtain ⟨a, b, c, d, rfl⟩ := h; exact List.cons_ne_nil _ _

theorem mem_dirEntries {fs : FS} {ls : Str → List Str} {base suffix : Str} (h1 : base ≠ []) (h2 : endsWith base ['/'] = false)
    (hn : ∀ n ∈ ls base, Spec.CleanName n) (lang path : Str) : (lang, path) ∈ dirEntries fs ls base suffix ↔
      Spec.LangName lang ∧ lang ∈ ls base ∧ lang.head? ≠ some '.' ∧ fs (base ++ '/' :: lang) = some .dir ∧
        path = base ++ '/' :: lang ++ suffix ∧ fs path ≠ none := by
  have hp : ∀ n ∈ ls base, Spec.LangName n → ∀ x, pjoin base (n ++ x) = base ++ '/' :: n ++ x := fun n hm hl x => by
    rw [pjoin_plain h1 h2 (clean_head (hn n hm) x (LangName.ne hl)), List.append_assoc, List.cons_append]
  unfold dirEntries
  simp only [List.mem_map, List.mem_filter, Bool.and_eq_true, decide_eq_true_eq, Prod.mk.injEq, globLang_iff, Option.isSome_iff_ne_none]
  constructor
  · rintro ⟨n, ⟨hm, ⟨⟨hl, hd⟩, hf⟩, hs⟩, rfl, rfl⟩
    have e := hp n hm hl []
    rw [List.append_nil, List.append_nil] at e
    rw [e] at hf
    rw [hp n hm hl] at hs ⊢
    exact ⟨hl, hm, hd, hf, rfl, hs⟩
  · rintro ⟨hl, hm, hd, hf, rfl, hs⟩
    have e := hp lang hm hl []
    rw [List.append_nil, List.append_nil] at e
    refine ⟨lang, ⟨hm, ⟨⟨hl, hd⟩, ?_⟩, ?_⟩, rfl, hp lang hm hl _⟩
    · rw [e]; exact hf
    · rw [hp lang hm hl]; exact hs

theorem file_name_iff {n pre suffix : Str} : ((startsWith n pre = true ∧ endsWith n suffix = true) ∧ n.length = pre.length + 5 + suffix.length) ∧
      n[pre.length + 2]? = some '_' ↔ ∃ lang, Spec.LangName lang ∧ n = pre ++ lang ++ suffix := by
  constructor
  · rintro ⟨⟨⟨hs, he⟩, hl⟩, hu⟩
    obtain ⟨t, rfl⟩ := startsWith_iff.1 hs
    obtain ⟨u, hu'⟩ := endsWith_iff.1 he
    have hul : u.length = pre.length + 5 := by
      have := congrArg List.length hu'
      rw [hl] at this
      simp only [List.length_append] at this
      omega
    have : u = pre ++ u.drop pre.length := by
      have e1 := congrArg (List.take pre.length) hu'
      rw [List.take_left, List.take_append_of_le_length (by omega)] at e1
      conv_lhs => rw [← List.take_append_drop pre.length u, ← e1]
    rw [this] at hu'
    have hvl : (u.drop pre.length).length = 5 := by rw [List.length_drop]; omega
    generalize u.drop pre.length = v at hvl hu'
    rw [hu']
    rw [hu'] at hu
    refine ⟨v, ?_, rfl⟩
    match v, hvl with
    | [a, b, c, d, e], _ =>
      rw [List.append_assoc, List.getElem?_append_right (by omega)] at hu
      have : pre.length + 2 - pre.length = 2 := by omega
      rw [this] at hu
      simp only [List.cons_append, List.getElem?_cons_succ, List.getElem?_cons_zero, Option.some.injEq] at hu
      subst hu
      exact ⟨a, b, d, e, rfl⟩
  · rintro ⟨lang, ⟨a, b, c, d, rfl⟩, rfl⟩
    refine ⟨⟨⟨startsWith_iff.2 ⟨_, List.append_assoc _ _ _⟩, endsWith_iff.2 ⟨_, rfl⟩⟩, ?_⟩, ?_⟩
    · simp only [List.length_append, List.length_cons, List.length_nil]
    · rw [List.append_assoc, List.getElem?_append_right (by omega)]
      have : pre.length + 2 - pre.length = 2 := by omega
      rw [this]; rfl

theorem mem_fileEntries {ls : Str → List Str} {base pre suffix : Str} (h1 : base ≠ []) (h2 : endsWith base ['/'] = false)
    (lang path : Str) : (lang, path) ∈ fileEntries ls base pre suffix ↔
      Spec.LangName lang ∧ pre ++ lang ++ suffix ∈ ls (base ++ '/' :: "data/menu".toList) ∧
        path = base ++ '/' :: "data/menu".toList ++ '/' :: (pre ++ lang ++ suffix) := by
  unfold fileEntries
  rw [pjoin_plain h1 h2 (by decide)]
  generalize '/' :: "data/menu".toList = dm
  simp only [List.mem_map, List.mem_filter, Bool.and_eq_true, decide_eq_true_eq, Prod.mk.injEq, file_name_iff]
  constructor
  · rintro ⟨n, ⟨hm, l, hl, rfl⟩, rfl, rfl⟩
    have : ((pre ++ l ++ suffix).drop pre.length).take 5 = l := by
      rw [List.append_assoc, List.drop_left]
      obtain ⟨a, b, c, d, rfl⟩ := hl
      rfl
    rw [this]
    exact ⟨hl, hm, rfl⟩
  · rintro ⟨hl, hm, rfl⟩
    refine ⟨_, ⟨hm, lang, hl, rfl⟩, ?_, rfl⟩
    rw [List.append_assoc, List.drop_left]
    obtain ⟨a, b, c, d, rfl⟩ := hl
    rfl


theorem langDict_dirs {fs : FS} {ls : Str → List Str} {base suffix : Str} (h1 : base ≠ []) (h2 : endsWith base ['/'] = false)
    (hn : ∀ n ∈ ls base, Spec.CleanName n) : langDict [] suffix (globDirs fs ls base suffix) = .ok (Dict.ofList (dirEntries fs ls base suffix)) := by
  have e : globDirs fs ls base suffix = (dirEntries fs ls base suffix).map (·.2) := by
    unfold globDirs dirEntries
    rw [List.map_map]; rfl
  rw [e]
  refine langDict_ok _ _ _ ?_
  rintro ⟨lang, path⟩ hx
  obtain ⟨hl, hm, -, -, rfl, -⟩ := (mem_dirEntries h1 h2 hn _ _).1 hx
  have : base ++ '/' :: lang ++ suffix = (base ++ ['/']) ++ lang ++ suffix := by simp
  simp only [this]
  exact searchLang_ok _ _ _ _ hl (hn _ hm) (endsWith_iff.2 ⟨_, (List.append_nil _).symm⟩)

theorem langDict_files {ls : Str → List Str} {base pre suffix : Str} (h1 : base ≠ []) (h2 : endsWith base ['/'] = false)
    (hn : ∀ n ∈ ls (base ++ '/' :: "data/menu".toList), Spec.CleanName n) (hp : '\\' ∉ pre) :
    langDict ("data/menu/".toList ++ pre) suffix (globFiles ls base pre suffix) = .ok (Dict.ofList (fileEntries ls base pre suffix)) := by
  have e : globFiles ls base pre suffix = (fileEntries ls base pre suffix).map (·.2) := by
    unfold globFiles fileEntries
    rw [List.map_map]; rfl
  rw [e]
  refine langDict_ok _ _ _ ?_
  rintro ⟨lang, path⟩ hx
  obtain ⟨hl, hm, rfl⟩ := (mem_fileEntries h1 h2 _ _).1 hx
  have hc := hn _ hm
  have hcl : Spec.CleanName lang := by
    obtain ⟨a, b, c⟩ := hc
    simp only [List.mem_append, not_or] at a b c
    exact ⟨a.1.2, b.1.2, c.1.2⟩
  have e2 : base ++ '/' :: "data/menu".toList ++ '/' :: (pre ++ lang ++ suffix) = (base ++ '/' :: ("data/menu/".toList ++ pre)) ++ lang ++ suffix := by
    have : "data/menu/".toList = "data/menu".toList ++ ['/'] := rfl
    rw [this]
    generalize "data/menu".toList = dm
    simp
  simp only [e2]
  refine searchLang_ok _ _ _ _ hl hcl ?_
  have hmap : ("data/menu/".toList ++ pre).map (fun c => if c = '\\' then '/' else c) = "data/menu/".toList ++ pre := by
    rw [List.map_append]
    congr 1
    conv_rhs => rw [← List.map_id pre]
    refine List.map_congr_left fun c hc => ?_
    rw [if_neg]; rfl
    rintro rfl; exact hp hc
  rw [List.map_append, List.map_cons, hmap]
  exact endsWith_iff.2 ⟨base.map (fun c => if c = '\\' then '/' else c) ++ ['/'], by simp⟩

/-- The entries for the format `k` -/
def tableEntries (fs : FS) (ls : Str → List Str) (base game : Str) : Nat → List (Str × Str)
  | 0 => dirEntries fs ls base ("/data/menu/en_us/".toList ++ game ++ ".stringtable".toList)
  | 1 => dirEntries fs ls base "/data/menu/en_us/main.stringtable".toList
  | 2 => fileEntries ls base "main_".toList ".stringtable".toList
  | 3 => fileEntries ls base "fontconfig_".toList ".txt".toList
  | _ => []

theorem mem_tableEntries {fs : FS} {ls : Str → List Str} {base : Str} (game : Str) (h1 : base ≠ []) (h2 : endsWith base ['/'] = false)
    (hn : ∀ n ∈ ls base, Spec.CleanName n) (k : Nat) (lang path : Str) :
    (lang, path) ∈ tableEntries fs ls base game k ↔ Spec.TableFile fs ls base game k lang path := by
  unfold Spec.TableFile tableEntries
  split
  · rw [mem_dirEntries h1 h2 hn]
    simp only [List.append_assoc, true_and, Nat.zero_ne_one, false_and, (by decide : ¬ (0 = 2)), (by decide : ¬ (0 = 3)), or_false]
  · rw [mem_dirEntries h1 h2 hn]
    simp only [List.append_assoc, true_and, false_and, (by decide : ¬ (1 = 0)), (by decide : ¬ (1 = 2)), (by decide : ¬ (1 = 3)), or_false, false_or]
  · rw [mem_fileEntries h1 h2]
    have a : '/' :: "data/menu".toList = "/data/menu".toList := rfl
    have b : "/data/menu/main_".toList = "/data/menu".toList ++ '/' :: "main_".toList := rfl
    rw [a, b]
    generalize "/data/menu".toList = dm
    simp only [List.append_assoc, List.cons_append, true_and, false_and, (by decide : ¬ (2 = 0)), (by decide : ¬ (2 = 1)), (by decide : ¬ (2 = 3)), or_false, false_or]
  · rw [mem_fileEntries h1 h2]
    have a : '/' :: "data/menu".toList = "/data/menu".toList := rfl
    have b : "/data/menu/fontconfig_".toList = "/data/menu".toList ++ '/' :: "fontconfig_".toList := rfl
    rw [a, b]
    generalize "/data/menu".toList = dm
    simp only [List.append_assoc, List.cons_append, true_and, false_and, (by decide : ¬ (3 = 0)), (by decide : ¬ (3 = 1)), (by decide : ¬ (3 = 2)), false_or]
  · rename_i a b c d
    simp only [List.not_mem_nil, false_iff, not_and, not_or]
    exact fun _ => ⟨fun h => absurd h a, fun h => absurd h b, fun h => absurd h c, fun h => absurd h d⟩

theorem TableFile.fn {fs : FS} {ls : Str → List Str} {base game : Str} {k : Nat} {lang p q : Str} (h : Spec.TableFile fs ls base game k lang p)
    (h' : Spec.TableFile fs ls base game k lang q) : p = q := by
  obtain ⟨-, h⟩ := h
  obtain ⟨-, h'⟩ := h'
  rcases h with ⟨rfl, -, -, -, rfl, -⟩ | ⟨rfl, -, -, -, rfl, -⟩ | ⟨rfl, -, rfl⟩ | ⟨rfl, -, rfl⟩ <;>
  rcases h' with ⟨h, -, -, -, rfl, -⟩ | ⟨h, -, -, -, rfl, -⟩ | ⟨h, -, rfl⟩ | ⟨h, -, rfl⟩ <;> first | rfl | cases h

open Classical in
theorem tableEntries_get {fs : FS} {ls : Str → List Str} {base : Str} (game : Str) (h1 : base ≠ []) (h2 : endsWith base ['/'] = false)
    (hn : ∀ n ∈ ls base, Spec.CleanName n) (k : Nat) (lang path : Str) :
    (Dict.ofList (tableEntries fs ls base game k)).get? lang = some path ↔ Spec.TableFile fs ls base game k lang path := by
  rw [← mem_tableEntries game h1 h2 hn]
  refine ofList_graph (g := fun l => if h : ∃ p, Spec.TableFile fs ls base game k l p then h.choose else []) ?_ _ _
  rintro ⟨l, p⟩ hx
  have ht := (mem_tableEntries game h1 h2 hn _ _ _).1 hx
  have hex : ∃ p, Spec.TableFile fs ls base game k l p := ⟨p, ht⟩
  simp only [dif_pos hex]
  exact TableFile.fn ht hex.choose_spec

theorem stringTables_eq {fs : FS} {ls : Str → List Str} {base : Str} (game : Str) (h1 : base ≠ []) (h2 : endsWith base ['/'] = false)
    (hn : ∀ n ∈ ls base, Spec.CleanName n) (hm : ∀ n ∈ ls (base ++ "/data/menu".toList), Spec.CleanName n) :
    stringTables fs ls base game =
      if tableEntries fs ls base game 0 ≠ [] then .ok (Dict.ofList (tableEntries fs ls base game 0)) else
      if tableEntries fs ls base game 1 ≠ [] then .ok (Dict.ofList (tableEntries fs ls base game 1)) else
      if tableEntries fs ls base game 2 ≠ [] then .ok (Dict.ofList (tableEntries fs ls base game 2)) else
      if tableEntries fs ls base game 3 ≠ [] then .ok (Dict.ofList (tableEntries fs ls base game 3)) else .error .runtime := by
  have l2 := langDict_files (ls := ls) (pre := "main_".toList) (suffix := ".stringtable".toList) h1 h2 hm (by decide)
  have l3 := langDict_files (ls := ls) (pre := "fontconfig_".toList) (suffix := ".txt".toList) h1 h2 hm (by decide)
  have a : "data/menu/main_".toList = "data/menu/".toList ++ "main_".toList := rfl
  have b : "data/menu/fontconfig_".toList = "data/menu/".toList ++ "fontconfig_".toList := rfl
  unfold stringTables
  simp only [a, b, l2, l3, langDict_dirs h1 h2 hn, bind, Except.bind, ofList_isEmpty]
  have hne : ∀ l : List (Str × Str), ((!l.isEmpty) = true) = (l ≠ []) := by
    intro l; cases l <;> simp
  simp only [hne]
  rfl

/-- **C72 (string tables of a directory).** The tables of the newest format that has at least one table are returned, all of them,
by language, and nothing else. When no format has a table there is an error. -/
theorem C72_tables {fs : FS} {ls : Str → List Str} {base : Str} (game : Str) (h1 : base ≠ []) (h2 : endsWith base ['/'] = false)
    (hn : ∀ n ∈ ls base, Spec.CleanName n) (hm : ∀ n ∈ ls (base ++ "/data/menu".toList), Spec.CleanName n) :
    (∃ d k, stringTables fs ls base game = .ok d ∧ (∃ lang path, Spec.TableFile fs ls base game k lang path) ∧
        (∀ j < k, ∀ lang path, ¬ Spec.TableFile fs ls base game j lang path) ∧
        ∀ lang path, d.get? lang = some path ↔ Spec.TableFile fs ls base game k lang path) ∨
    (stringTables fs ls base game = .error .runtime ∧ ∀ k lang path, ¬ Spec.TableFile fs ls base game k lang path) := by
  have hg := tableEntries_get (fs := fs) (ls := ls) game h1 h2 hn
  have hmem := mem_tableEntries (fs := fs) (ls := ls) game h1 h2 hn
  have hne : ∀ k, tableEntries fs ls base game k ≠ [] → ∃ lang path, Spec.TableFile fs ls base game k lang path := by
    intro k h
    cases he : tableEntries fs ls base game k with
    | nil => exact absurd he h
    | cons x l => exact ⟨x.1, x.2, (hmem k x.1 x.2).1 (by rw [he]; simp)⟩
  have hno : ∀ k, ¬ tableEntries fs ls base game k ≠ [] → ∀ lang path, ¬ Spec.TableFile fs ls base game k lang path := by
    intro k h lang path ht
    have := (hmem k lang path).2 ht
    rw [Classical.not_not.1 h] at this
    cases this
  rw [stringTables_eq game h1 h2 hn hm]
  by_cases e0 : tableEntries fs ls base game 0 ≠ []
  · rw [if_pos e0]
    exact Or.inl ⟨_, 0, rfl, hne 0 e0, fun j hj => absurd hj (Nat.not_lt_zero _), hg 0⟩
  rw [if_neg e0]
  by_cases e1 : tableEntries fs ls base game 1 ≠ []
  · rw [if_pos e1]
    refine Or.inl ⟨_, 1, rfl, hne 1 e1, fun j hj => ?_, hg 1⟩
    match j, hj with
    | 0, _ => exact hno 0 e0
  rw [if_neg e1]
  by_cases e2 : tableEntries fs ls base game 2 ≠ []
  · rw [if_pos e2]
    refine Or.inl ⟨_, 2, rfl, hne 2 e2, fun j hj => ?_, hg 2⟩
    match j, hj with
    | 0, _ => exact hno 0 e0
    | 1, _ => exact hno 1 e1
  rw [if_neg e2]
  by_cases e3 : tableEntries fs ls base game 3 ≠ []
  · rw [if_pos e3]
    refine Or.inl ⟨_, 3, rfl, hne 3 e3, fun j hj => ?_, hg 3⟩
    match j, hj with
    | 0, _ => exact hno 0 e0
    | 1, _ => exact hno 1 e1
    | 2, _ => exact hno 2 e2
  rw [if_neg e3]
  refine Or.inr ⟨rfl, fun k lang path ht => ?_⟩
  match k, ht with
  | 0, ht => exact hno 0 e0 _ _ ht
  | 1, ht => exact hno 1 e1 _ _ ht
  | 2, ht => exact hno 2 e2 _ _ ht
  | 3, ht => exact hno 3 e3 _ _ ht
  | k + 4, ht =>
    rcases ht.2 with h | h | h | h <;> exact absurd h.1 (by omega)


/-! ## Augments -/

open Classical in
/-- **C72 (augments).** The augments are those of the file that are not disabled, in the order of the file, and each one has the values
of its fields, with the data values and the calculations of its spell. -/
theorem C72_augments (lib : ArenaLib) (entries : List BinEntry) (as : List Augment) (h : parseAugments lib entries = .ok as) :
    List.Forall₂ (fun e a => Spec.AugmentFrom lib.bin entries e.fields a)
      (entries.filter fun e => decide (Spec.HasType lib.bin e "AugmentData".toList ∧ Spec.AugmentEnabled e.fields)) as := by
  have h1 := augmentsOf_ok h
  rw [List.filter_filter] at h1
  convert h1 using 2
  funext e
  rw [Bool.eq_iff_iff, Bool.and_eq_true, decide_eq_true_eq, decide_eq_true_eq, isType_iff (by decide), and_comm]

/-- A disabled augment is not read: its spell can be missing. A link to no spell (a null path) in an enabled one is an error,
as is a path which no spell of the file has. -/
theorem C72_missing_spell (lib : ArenaLib) (a b : List BinEntry) (e : BinEntry) (k : BinHashKind) (h : Nat)
    (ht : Spec.HasType lib.bin e "AugmentData".toList) (he : Spec.AugmentEnabled e.fields)
    (hr : Spec.Gives e.fields "RootSpell".toList (.value (.hashed k h)))
    (hn : ∀ x ∈ a ++ e :: b, Spec.HasType lib.bin x "SpellObject".toList → x.path ≠ h) : ∀ as, parseAugments lib (a ++ e :: b) ≠ .ok as := by
  intro as hp
  classical
  have h1 := C72_augments lib _ as hp
  have hm : e ∈ (a ++ e :: b).filter fun e => decide (Spec.HasType lib.bin e "AugmentData".toList ∧ Spec.AugmentEnabled e.fields) :=
    List.mem_filter.2 ⟨by simp, decide_eq_true ⟨ht, he⟩⟩
  obtain ⟨y, -, hy⟩ := forall₂_mem_left h1 hm
  obtain ⟨root, hroot, hd⟩ := hy.data
  have e1 := (fieldD_iff (by decide) _ _).2 hroot
  have e2 := (fieldD_iff (fields := e.fields) (name := "RootSpell".toList) (by decide) .none _).2 (.inl hr)
  rw [e1] at e2
  subst e2
  rcases hd with ⟨hf, -⟩ | ⟨-, n, e', _, _, _, _, _, hpath, ⟨a', b', hs, hty, hp', -⟩, -⟩
  · cases hf
  · cases hpath
    exact hn e' (by rw [hs]; simp) hty hp'

/-! ## Files by language -/

theorem rstReplace_iff (env : RstEnv) (r : Rst) (p q : BinPy) : rstReplace env r p = q ↔ Spec.InLanguage env r p q := by
  unfold rstReplace Spec.InLanguage Rst.hasKey Rst.getitem Dict.contains
  generalize rstKeyOf p = k
  generalize hkk : keyToHash env k r.hashBits r.gameVersion = kk
  rcases kk with x | h
  · simp only [Bool.false_eq_true, if_false]
    exact ⟨fun h => .inr ⟨fun t ht => (nomatch ht), h.symm⟩, fun h => by rcases h with ⟨t, ht, -⟩ | ⟨-, h⟩; cases ht; exact h.symm⟩
  · simp only
    rcases r.entries.get? h with _ | t
    · simp [eq_comm]
    · simp [eq_comm]

theorem translate_iff (env : RstEnv) (r : Rst) (a b : Augment) : a.translate env r = b ↔ Spec.AugmentIn env r a b := by
  unfold Augment.translate Spec.AugmentIn
  constructor
  · rintro rfl
    exact ⟨_, _, _, (rstReplace_iff _ _ _ _).1 rfl, (rstReplace_iff _ _ _ _).1 rfl, (rstReplace_iff _ _ _ _).1 rfl, rfl⟩
  · rintro ⟨n, d, t, hn, hd, ht, rfl⟩
    rw [(rstReplace_iff _ _ _ _).2 hn, (rstReplace_iff _ _ _ _).2 hd, (rstReplace_iff _ _ _ _).2 ht]

theorem translate_all {env : RstEnv} {r : Rst} {as bs : List Augment} : as.map (Augment.translate env r) = bs ↔ List.Forall₂ (Spec.AugmentIn env r) as bs := by
  constructor
  · rintro rfl
    induction as with
    | nil => exact .nil
    | cons a as ih => exact .cons ((translate_iff _ _ _ _).1 rfl) ih
  · intro h
    induction h with
    | nil => rfl
    | cons h _ ih => rw [List.map_cons, (translate_iff _ _ _ _).2 h, ih]

/-- The file of a language -/
def Spec.langFile (output lang : Str) : Str := pjoin output (lang ++ ".json".toList)

/-- The file of a language is complete: all the augments, with the texts of the string table of this language. `fs` is the file system before
the export. -/
def Spec.LangComplete (lib : ArenaLib) (version : Nat) (tables : Dict Str Str) (fs : FS) (as : List Augment) (output : Str) (fs' : FS) (lang : Str) : Prop :=
  ∃ path data r bs, tables.get? lang = some path ∧ fs path = some (.file data) ∧ (parseRst lib.rst version).run data = .ok r ∧
    List.Forall₂ (Spec.AugmentIn lib.rst r) as bs ∧ bodyErr (lib.json bs) = none ∧
    fs' (Spec.langFile output lang) = some (.file (bodyBytes (lib.json bs)))

theorem langFile_inj {output a b : Str} (ha : '/' ∉ a) (hb : '/' ∉ b) (h : Spec.langFile output a = Spec.langFile output b) : a = b := by
  have hs : ∀ x : Str, '/' ∉ x → startsWith (x ++ ".json".toList) ['/'] = false := by
    intro x hx
    rw [Bool.eq_false_iff]
    intro hh
    obtain ⟨t, ht⟩ := startsWith_iff.1 hh
    have : '/' ∈ x ++ ".json".toList := by rw [ht]; simp
    rcases List.mem_append.1 this with h | h
    · exact hx h
    · exact absurd h (by decide)
  unfold Spec.langFile pjoin at h
  rw [hs a ha, hs b hb] at h
  simp only [Bool.false_eq_true, if_false] at h
  split at h
  · exact List.append_cancel_right (List.append_cancel_left h)
  · exact List.append_cancel_right (List.append_cancel_left h)

theorem arenaTable_ok {lib : ArenaLib} {version : Nat} {tables : Dict Str Str} {fs : FS} {lang : Str} {r : Rst}
    (h : arenaTable lib version tables fs lang = .ok r) : ∃ path data, tables.get? lang = some path ∧ fs path = some (.file data) ∧
      (parseRst lib.rst version).run data = .ok r := by
  unfold arenaTable at h
  split at h
  · cases h
  · rename_i path hp
    rcases hd : fs.readFile path with e | data
    · rw [hd] at h; cases h
    · rw [hd] at h
      exact ⟨path, data, hp, readFile_iff.1 hd, h⟩

/-- The loop on languages -/
theorem arenaLangs_spec {lib : ArenaLib} {version : Nat} {tables : Dict Str Str} {as : List Augment} {output : Str} {f : Nat → WriteFaults} {fs0 : FS}
    {langs : List Str} (i : Nat) (fs : FS) (hnd : langs.Nodup) (hs : ∀ l ∈ langs, '/' ∉ l)
    (hsep : ∀ l ∈ langs, ∀ l' path, tables.get? l' = some path → Spec.langFile output l ≠ path)
    (hfs : ∀ l path b, tables.get? l = some path → fs path = some (.file b) → fs0 path = some (.file b)) :
    (∀ q, (∀ l ∈ langs, q ≠ Spec.langFile output l) → (arenaLangs lib version tables as output f i fs langs).1 q = fs q) ∧
    (((arenaLangs lib version tables as output f i fs langs).2 = .ok () ∧
        ∀ l ∈ langs, Spec.LangComplete lib version tables fs0 as output (arenaLangs lib version tables as output f i fs langs).1 l) ∨
     ∃ e a l b, (arenaLangs lib version tables as output f i fs langs).2 = .error e ∧ langs = a ++ l :: b ∧
        (∀ x ∈ a, Spec.LangComplete lib version tables fs0 as output (arenaLangs lib version tables as output f i fs langs).1 x) ∧
        ∀ x ∈ b, (arenaLangs lib version tables as output f i fs langs).1 (Spec.langFile output x) = fs (Spec.langFile output x)) := by
  induction langs generalizing i fs with
  | nil => exact ⟨fun _ _ => rfl, .inl ⟨rfl, fun l hl => absurd hl (by simp)⟩⟩
  | cons lang langs ih =>
    rw [List.nodup_cons] at hnd
    unfold arenaLangs
    rcases ht : arenaTable lib version tables fs lang with e | r
    · exact ⟨fun _ _ => rfl, .inr ⟨e, [], lang, langs, rfl, rfl, fun x hx => absurd hx (by simp), fun _ _ => rfl⟩⟩
    simp only
    generalize hb : lib.json (as.map (Augment.translate lib.rst r)) = body
    have hw := openAndWrite_ok (fs := fs) (p := pjoin output (lang ++ ".json".toList)) (body := body) (f := f i)
    have ho := fun q => openAndWrite_other fs (p := pjoin output (lang ++ ".json".toList)) (q := q) body (f i)
    have hne : ∀ x ∈ langs, Spec.langFile output x ≠ Spec.langFile output lang := fun x hx h =>
      hnd.1 (by rw [← langFile_inj (hs x (by simp [hx])) (hs lang (by simp)) h]; exact hx)
    rcases hr : openAndWrite fs (pjoin output (lang ++ ".json".toList)) body (f i) with ⟨fs', e | u⟩
    · rw [hr] at ho
      exact ⟨fun q hq => ho q (hq lang (by simp)), .inr ⟨e, [], lang, langs, rfl, rfl, fun x hx => absurd hx (by simp), fun x hx => ho _ (hne x hx)⟩⟩
    rw [hr] at ho hw
    obtain ⟨hw1, hw2⟩ := hw rfl
    have hs' : ∀ l ∈ langs, '/' ∉ l := fun l hl => hs l (by simp [hl])
    have hfs' : ∀ l path b, tables.get? l = some path → fs' path = some (.file b) → fs0 path = some (.file b) := by
      intro l path b hl hp
      refine hfs l path b hl ?_
      rw [← ho path (hsep lang (by simp) l path hl).symm]; exact hp
    obtain ⟨h1, h2⟩ := ih (i + 1) fs' hnd.2 hs' (fun l hl => hsep l (by simp [hl])) hfs'
    cases u
    simp only
    generalize arenaLangs lib version tables as output f (i + 1) fs' langs = R at h1 h2
    have hdone : Spec.LangComplete lib version tables fs0 as output R.1 lang := by
      obtain ⟨path, data, p1, p2, p3⟩ := arenaTable_ok ht
      refine ⟨path, data, r, _, p1, hfs lang path data p1 p2, p3, translate_all.1 rfl, by rw [hb]; exact hw1, ?_⟩
      rw [h1 _ fun l hl => (hne l hl).symm, hb]
      exact hw2
    refine ⟨fun q hq => ?_, ?_⟩
    · rw [h1 q fun l hl => hq l (by simp [hl])]
      exact ho q (hq lang (by simp))
    · rcases h2 with ⟨h2, h3⟩ | ⟨e, a, l, b, h2, rfl, h3, h4⟩
      · refine .inl ⟨h2, fun l hl => ?_⟩
        rcases List.mem_cons.1 hl with rfl | hl
        · exact hdone
        · exact h3 l hl
      · refine .inr ⟨e, lang :: a, l, b, h2, rfl, fun x hx => ?_, fun x hx => ?_⟩
        · rcases List.mem_cons.1 hx with rfl | hx
          · exact hdone
          · exact h3 x hx
        · rw [h4 x hx]
          exact ho _ (hne x (by simp [hx]))

/-- The augments of the file of the map in a directory -/
def Spec.ArenaData (lib : ArenaLib) (fs : FS) (input : Str) (as : List Augment) : Prop :=
  ∃ data bin, fs (pjoin input "data/maps/shipping/map30/map30.bin".toList) = some (.file data) ∧ parseBin none data = .ok bin ∧
    parseAugments lib bin.entries = .ok as

theorem arenaTemplate_iff {lib : ArenaLib} {fs : FS} {input : Str} {as : List Augment} : arenaTemplate lib fs input = .ok as ↔ Spec.ArenaData lib fs input as := by
  unfold arenaTemplate Spec.ArenaData map30Path
  constructor
  · intro h
    rcases hd : fs.readFile (pjoin input "data/maps/shipping/map30/map30.bin".toList) with e | data
    · rw [hd] at h; cases h
    rw [hd] at h
    simp only [bind, Except.bind] at h
    rcases hb : parseBin none data with e | bin
    · rw [hb] at h; cases h
    rw [hb] at h
    exact ⟨data, bin, readFile_iff.1 hd, hb, h⟩
  · rintro ⟨data, bin, h1, h2, h3⟩
    rw [readFile_iff.2 h1]
    simp only [bind, Except.bind, h2]
    exact h3

/-- **C72 (export of Arena data).** Whatever fails, only the files of the requested languages and new directories change. When the export
succeeds, there is a complete file for each requested language (by default, each language with a string table). When it fails with a language,
files of previous languages are complete, and those of the next ones are untouched. -/
theorem C72_export (lib : ArenaLib) (version : Nat) (ls : Str → List Str) (input output : Str) (langs : Option (List Str)) (mk : Option (Nat × Err))
    (f : Nat → WriteFaults) (fs : FS) (tables : Dict Str Str) (ht : stringTables fs ls input "lol".toList = .ok tables)
    (hnd : (langs.getD tables.keys).Nodup) (hs : ∀ l ∈ langs.getD tables.keys, '/' ∉ l)
    (hsep : ∀ l ∈ langs.getD tables.keys, ∀ l' path, tables.get? l' = some path → Spec.langFile output l ≠ path) :
    (∀ q, (∀ l ∈ langs.getD tables.keys, q ≠ Spec.langFile output l) → (arenaExport lib version ls input output langs mk f fs).1 q = fs q ∨
        (fs q = none ∧ (arenaExport lib version ls input output langs mk f fs).1 q = some .dir)) ∧
    (((arenaExport lib version ls input output langs mk f fs).2 = .ok () ∧ ∃ as, Spec.ArenaData lib fs input as ∧
        ∀ l ∈ langs.getD tables.keys, Spec.LangComplete lib version tables fs as output (arenaExport lib version ls input output langs mk f fs).1 l) ∨
     (∃ e, (arenaExport lib version ls input output langs mk f fs).2 = .error e ∧ ∀ l ∈ langs.getD tables.keys,
        ∀ b, (arenaExport lib version ls input output langs mk f fs).1 (Spec.langFile output l) = some (.file b) →
          fs (Spec.langFile output l) = some (.file b)) ∨
     ∃ e as a l b, (arenaExport lib version ls input output langs mk f fs).2 = .error e ∧ Spec.ArenaData lib fs input as ∧
        langs.getD tables.keys = a ++ l :: b ∧
        (∀ x ∈ a, Spec.LangComplete lib version tables fs as output (arenaExport lib version ls input output langs mk f fs).1 x) ∧
        ∀ x ∈ b, ∀ c, (arenaExport lib version ls input output langs mk f fs).1 (Spec.langFile output x) = some (.file c) →
          fs (Spec.langFile output x) = some (.file c)) := by
  unfold arenaExport
  rw [ht]
  simp only
  have hd := makedirs_dirsAdded fs output mk
  rcases hm : fs.makedirs output mk with ⟨fs1, e | u⟩
  · rw [hm] at hd
    refine ⟨fun q _ => (hd q).imp id fun h => h.2, .inr (.inl ⟨e, rfl, fun l _ b hb => ?_⟩)⟩
    rcases hd (Spec.langFile output l) with h | ⟨-, -, h⟩
    · rw [← h]; exact hb
    · rw [hb] at h; cases h
  rw [hm] at hd
  cases u
  simp only at hd ⊢
  have hfile : ∀ q b, fs1 q = some (.file b) → fs q = some (.file b) := by
    intro q b hb
    rcases hd q with h | ⟨-, -, h⟩
    · rw [← h]; exact hb
    · rw [hb] at h; cases h
  rcases hte : arenaTemplate lib fs1 input with e | as
  · exact ⟨fun q _ => (hd q).imp id fun h => h.2, .inr (.inl ⟨e, rfl, fun l _ b hb => hfile _ _ hb⟩)⟩
  simp only
  have hdata : Spec.ArenaData lib fs input as := by
    obtain ⟨data, bin, h1, h2, h3⟩ := arenaTemplate_iff.1 hte
    exact ⟨data, bin, hfile _ _ h1, h2, h3⟩
  obtain ⟨h1, h2⟩ := arenaLangs_spec (lib := lib) (version := version) (as := as) (f := f) (fs0 := fs) 0 fs1 hnd hs hsep (fun l path b _ hp => hfile _ _ hp)
  refine ⟨fun q hq => ?_, ?_⟩
  · rw [h1 q hq]
    exact (hd q).imp id fun h => h.2
  · rcases h2 with ⟨h2, h3⟩ | ⟨e, a, l, b, h2, h3, h4, h5⟩
    · exact .inl ⟨h2, as, hdata, h3⟩
    · refine .inr (.inr ⟨e, as, a, l, b, h2, hdata, h3, h4, fun x hx c hc => ?_⟩)
      rw [h5 x hx] at hc
      exact hfile _ _ hc


/-- Without string table, nothing is done. -/
theorem C72_no_table (lib : ArenaLib) (version : Nat) (ls : Str → List Str) (input output : Str) (langs : Option (List Str)) (mk : Option (Nat × Err))
    (f : Nat → WriteFaults) (fs : FS) (h1 : input ≠ []) (h2 : endsWith input ['/'] = false)
    (hn : ∀ n ∈ ls input, Spec.CleanName n) (hm : ∀ n ∈ ls (input ++ "/data/menu".toList), Spec.CleanName n)
    (ht : ∀ k lang path, ¬ Spec.TableFile fs ls input "lol".toList k lang path) : arenaExport lib version ls input output langs mk f fs = (fs, .error .runtime) := by
  unfold arenaExport
  rcases C72_tables (fs := fs) "lol".toList h1 h2 hn hm with ⟨d, k, -, ⟨l, p, h⟩, -⟩ | ⟨h, -⟩
  · exact absurd h (ht k l p)
  · rw [h]

/-! ## Examples -/

/-- Environments of the examples -/
def arenaExLib : ArenaLib where
  bin := ⟨fun _ => [], fun _ => 0⟩
  rst := ⟨fun _ => [], fun _ => [], fun s => if s = "n".toList then 42 else 0, fun _ => 0, fun s => s⟩
  repr _ := []
  json as := as.flatMap fun a => match a.name with
    | .value (.str s) => [.write ((s ++ ' ' :: a.iconSmall).map fun c => UInt8.ofNat c.toNat)]
    | _ => [.write []]

/-- A map with an augment, whose name is `n` and whose icon is `A/B.TEX` -/
def arenaExMap : Bytes := [80, 82, 79, 80, 3, 0, 0, 0, 0, 0, 0, 0, 1, 0, 0, 0, 96, 184, 250, 109, 28, 0, 0, 0, 7, 0, 0, 0, 2, 0, 55, 235, 39, 33, 16, 1, 0, 110, 181, 31, 72, 69, 16, 7, 0, 65, 47, 66, 46, 84, 69, 88]

/-- A string table in which the identifier with hash 42 is `Hi` -/
def arenaExTable : Bytes := [82, 83, 84, 5, 1, 0, 0, 0, 42, 0, 0, 0, 0, 0, 0, 0, 72, 105, 0]

def arenaExFS : FS := fun p =>
  if p = "in/data/maps/shipping/map30/map30.bin".toList then some (.file arenaExMap)
  else if p = "in/fr_fr/data/menu/en_us/lol.stringtable".toList then some (.file arenaExTable)
  else if p ∈ ["in".toList, "in/fr_fr".toList] then some .dir else none

def arenaExLs (p : Str) : List Str := if p = "in".toList then ["data".toList, "fr_fr".toList] else []

example : stringTables arenaExFS arenaExLs "in".toList "lol".toList = .ok [("fr_fr".toList, "in/fr_fr/data/menu/en_us/lol.stringtable".toList)] := by decide +kernel

/-- The whole export, with the names of the example -/
theorem C72_export_met :
    let r := arenaExport arenaExLib 1502 arenaExLs "in".toList "out".toList none none (fun _ => {}) arenaExFS
    r.2 = .ok () ∧ r.1 "out/fr_fr.json".toList = some (.file ("Hi a/b.png".toList.map fun c => UInt8.ofNat c.toNat)) := by decide +kernel

/-- Hash of a name -/
def arenaExField (name : String) (v : BinValue) : BinField := .mk (fnv1a (lowerBytes name.toList)).toNat .string v

/-- A spell at path 5 with two data values of the same name, the second one with the new field -/
def arenaExSpell : BinEntry := ⟨5, (fnv1a (lowerBytes "SpellObject".toList)).toNat, [arenaExField "mSpell" (.embedded 0 [arenaExField "mDataValues" (.list .embedded [
    .embedded 0 [arenaExField "mName" (.str "X".toList), arenaExField "mValues" (.list .s32 [.int 4, .int 5])],
    .embedded 0 [arenaExField "name" (.str "X".toList), arenaExField "values" (.list .s32 [.int 6, .int 7])],
    .embedded 0 [arenaExField "mName" (.str "Y".toList)]])])]⟩

def arenaExAugment (l : List BinField) : BinEntry := ⟨1, (fnv1a (lowerBytes "AugmentData".toList)).toNat, l⟩

/-- What can be compared -/
def arenaExView (a : Augment) : List (Str × List Int) := a.dataValues.map fun x => (match x.1 with | .value (.str s) => s | _ => [], match x.2 with
  | .list l => l.map fun v => match v with | .int n => n | _ => -1
  | .value (.int n) => [n]
  | _ => [])

/-- Three augments: one is disabled, the others use the spell (the last value of each name is kept), or none. -/
theorem C72_augments_met : (match parseAugments arenaExLib [arenaExAugment [arenaExField "RootSpell" (.hashed .entry 5)], arenaExSpell,
      arenaExAugment [arenaExField "enabled" (.bool false), arenaExField "RootSpell" (.hashed .entry 9)], arenaExAugment []] with
    | .ok as => some (as.map arenaExView, as.map (·.iconSmall))
    | .error _ => none) = some ([[("X".toList, [6, 7]), ("Y".toList, [0])], []], ["none".toList, "none".toList]) := by decide +kernel

/-- An empty old list of values is an error, even when there is a new one. -/
theorem C72_empty_values (d : List (BinPy × BinPy)) (fields : List BinField) (item : BinPy) (items : List BinPy) (hi : Spec.IsObject item fields)
    (h : Spec.Gives fields "mValues".toList (.list [])) : augmentValues d (item :: items) = .error .index := by
  unfold augmentValues
  rw [(fieldsOf_iff _ _).2 hi]
  have : firstValue fields = .error .index := by
    unfold firstValue
    rw [(fieldD_iff (by decide) _ _).2 (.inl h)]
    rfl
  simp only [bind, Except.bind, this]

end Cdtb
