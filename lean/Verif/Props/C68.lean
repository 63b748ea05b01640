import Verif.Spec.RadsComponent
import Verif.Props.C09
import Verif.Props.C40
import Verif.Props.C57
import Verif.Props.C63ex
import Mathlib.Data.Char
import Mathlib.Data.List.Lex
/-!
# C68 RADS components: identity, order, component strings, listings
-/
namespace Cdtb
set_option autoImplicit false
open Py Spec

/-! ## Component strings -/

theorem radsVersionMatch_iff (v : Str) : radsVersionMatch v = true ↔ RadsVersionText v := by
  unfold radsVersionMatch RadsVersionText
  simp only [Bool.or_eq_true, decide_eq_true_eq, List.all_eq_true, Bool.and_eq_true, or_assoc]
  refine or_congr_right ?_
  rw [or_comm]
  refine or_congr_right ?_
  have hdig : ∀ d : Str, (d ≠ [] ∧ ∀ c ∈ d, isDigit c = true) ↔ Digits d := fun d => (digits_iff d).symm
  constructor
  · intro h
    exact ⟨splitChar '.' v, splitChar_ne_nil _ _, fun d hd => (hdig d).1 (h d hd), (join_splitChar '.' v).symm⟩
  · rintro ⟨ds, h1, h2, rfl⟩ d hd
    rw [splitChar_join h1] at hd
    · exact (hdig d).2 (h2 d hd)
    · intro p hp hdot
      have := (h2 p hp).2 '.' hdot
      exact absurd this (by decide +kernel)

theorem digits_no_eq {d : Str} (h : Digits d) : '=' ∉ d ∧ '\n' ∉ d := by
  constructor <;> intro hm <;> exact absurd (h.2 _ hm) (by decide +kernel)

theorem versionText_newline {v : Str} (h : RadsVersionText v) : v.getLast? ≠ some '\n' := by
  intro hl
  have hm : '\n' ∈ v := by
    obtain ⟨t, rfl⟩ := List.getLast?_eq_some_iff.1 hl
    simp
  rcases h with rfl | rfl | ⟨ds, -, h2, rfl⟩
  · simp at hm
  · exact absurd hm (by decide +kernel)
  · have : ∀ ds : List Str, (∀ d ∈ ds, Digits d) → '\n' ∉ join ['.'] ds := by
      intro ds
      induction ds with
      | nil => intro _; simp [join]
      | cons d ds ih =>
        intro hd
        cases hds : ds with
        | nil => simpa [join] using (digits_no_eq (hd d (by simp))).2
        | cons x xs =>
          rw [← hds, join_cons (by rw [hds]; simp)]
          have := ih (fun y hy => hd y (by simp [hy]))
          have h2 := (digits_no_eq (hd d (by simp))).2
          simp [this, h2]
    exact this ds h2 hm

theorem dropFinalNewline_cases (c : Str) : ∃ nl, (nl = [] ∨ nl = ['\n']) ∧ c = dropFinalNewline c ++ nl := by
  unfold dropFinalNewline
  by_cases h : c.getLast? = some '\n'
  · rw [if_pos h]
    obtain ⟨t, rfl⟩ := List.getLast?_eq_some_iff.1 h
    exact ⟨['\n'], Or.inr rfl, by simp⟩
  · rw [if_neg h]
    exact ⟨[], Or.inl rfl, by simp⟩

theorem dropFinalNewline_append {b nl : Str} (hb : b.getLast? ≠ some '\n') (h : nl = [] ∨ nl = ['\n']) : dropFinalNewline (b ++ nl) = b := by
  unfold dropFinalNewline
  rcases h with rfl | rfl
  · rw [List.append_nil, if_neg hb]
  · simp

theorem word_not_mem {isWord : Char → Bool} {x : Char} (hx : isWord x = false) {n : Str} (h : ∀ y ∈ n, isWord y = true) : x ∉ n := by
  intro hm
  rw [h _ hm] at hx
  simp at hx

theorem radsNameVersion_iff {isWord : Char → Bool} (hw : WordChars isWord) (rest name : Str) (version : Option Str) :
    radsNameVersion isWord rest = some (name, version) ↔
      name ≠ [] ∧ (∀ x ∈ name, isWord x = true) ∧ (∀ v, version = some v → RadsVersionText v) ∧ rest = name ++ versionSuffix version := by
  have hwall : ∀ {n : Str}, (n.all isWord = true) ↔ ∀ x ∈ n, isWord x = true := by intro n; simp
  unfold radsNameVersion
  cases hs : split1 '=' rest with
  | none =>
    have hs := split1_eq_none.1 hs
    simp only
    constructor
    · intro h
      split at h
      · rename_i hc
        simp only [Option.some.injEq, Prod.mk.injEq] at h
        obtain ⟨rfl, rfl⟩ := h
        exact ⟨hc.1, hwall.1 hc.2, by simp, by simp [versionSuffix]⟩
      · simp at h
    · rintro ⟨h1, h2, h3, rfl⟩
      cases version with
      | none => simp only [versionSuffix, List.append_nil]; rw [if_pos ⟨h1, hwall.2 h2⟩]
      | some v => exact absurd (by simp [versionSuffix]) hs
  | some ab =>
    obtain ⟨a, b⟩ := ab
    obtain ⟨rfl, ha⟩ := split1_eq_some.1 hs
    simp only
    constructor
    · intro h
      split at h
      · rename_i hc
        simp only [Option.some.injEq, Prod.mk.injEq] at h
        obtain ⟨rfl, rfl⟩ := h
        refine ⟨hc.1.1, hwall.1 hc.1.2, ?_, by simp [versionSuffix]⟩
        intro v hv
        cases hv
        exact (radsVersionMatch_iff _).1 hc.2
      · simp at h
    · rintro ⟨h1, h2, h3, h4⟩
      cases version with
      | none =>
        simp only [versionSuffix, List.append_nil] at h4
        exact absurd (show '=' ∈ name by rw [← h4]; simp) (word_not_mem hw.2.1 h2)
      | some v =>
        simp only [versionSuffix] at h4
        have h5 : split1 '=' (name ++ '=' :: v) = some (name, v) := split1_eq_some.2 ⟨rfl, word_not_mem hw.2.1 h2⟩
        rw [← h4, hs] at h5
        simp only [Option.some.injEq, Prod.mk.injEq] at h5
        obtain ⟨rfl, rfl⟩ := h5
        rw [if_pos ⟨⟨h1, hwall.2 h2⟩, (radsVersionMatch_iff _).2 (h3 _ rfl)⟩]

theorem radsPrefix_spec (c : Str) : ∃ pre, RadsPrefix (radsPrefix c).1 pre ∧ c = pre ++ (radsPrefix c).2 := by
  unfold radsPrefix
  split
  · exact ⟨_, .solution, rfl⟩
  · exact ⟨_, .project, rfl⟩
  · exact ⟨_, .none, rfl⟩

theorem radsPrefix_name {typ : Option Char} {pre name rest : Str} (hp : RadsPrefix typ pre) (h1 : name ≠ []) (h2 : ':' ∉ name)
    (hr : rest.head? ≠ some ':') : radsPrefix (pre ++ name ++ rest) = (typ, name ++ rest) := by
  cases hp with
  | solution => rfl
  | project => rfl
  | none =>
    have key : ∀ x l, name ++ rest ≠ x :: ':' :: l := by
      intro x l h
      cases name with
      | nil => exact h1 rfl
      | cons a as =>
        simp only [List.cons_append, List.cons.injEq] at h
        cases as with
        | nil =>
          have h := h.2
          simp only [List.nil_append] at h
          rw [h] at hr; simp at hr
        | cons b bs =>
          have h := h.2
          simp only [List.cons_append, List.cons.injEq] at h
          rw [h.1] at h2; simp at h2
    rw [List.nil_append]
    unfold radsPrefix
    split
    · rename_i r h; exact absurd h (key _ _)
    · rename_i r h; exact absurd h (key _ _)
    · rfl

theorem versionSuffix_head (v : Option Str) : (versionSuffix v).head? ≠ some ':' := by
  cases v <;> simp [versionSuffix]

theorem radsText_last {isWord : Char → Bool} (hw : WordChars isWord) {pre n : Str} {ver : Option Str} (h1 : n ≠ []) (h2 : ∀ x ∈ n, isWord x = true)
    (h3 : ∀ v, ver = some v → RadsVersionText v) : (pre ++ n ++ versionSuffix ver).getLast? ≠ some '\n' := by
  cases ver with
  | none =>
    simp only [versionSuffix, List.append_nil]
    rw [List.getLast?_append_of_ne_nil _ h1]
    intro hl
    exact word_not_mem hw.2.2 h2 (List.mem_of_getLast? hl)
  | some v =>
    simp only [versionSuffix]
    rw [List.getLast?_append_of_ne_nil _ (by simp)]
    intro hl
    cases v with
    | nil => simp at hl
    | cons a l =>
      rw [List.getLast?_cons_cons] at hl
      exact versionText_newline (h3 _ rfl) hl

/-- The matching of component strings: exactly the strings of the grammar, with their parts -/
theorem matchRads_iff {isWord : Char → Bool} (hw : WordChars isWord) (c : Str) (typ : Option Char) (name : Str) (version : Option Str) :
    matchRads isWord c = some (typ, name, version) ↔ RadsText isWord c typ name version := by
  unfold matchRads
  simp only [Option.map_eq_some_iff]
  constructor
  · rintro ⟨⟨n, v⟩, h, heq⟩
    simp only [Prod.mk.injEq] at heq
    obtain ⟨rfl, rfl, rfl⟩ := heq
    obtain ⟨h1, h2, h3, h4⟩ := (radsNameVersion_iff hw _ _ _).1 h
    obtain ⟨nl, hnl, hc⟩ := dropFinalNewline_cases c
    obtain ⟨pre, hp, hpre⟩ := radsPrefix_spec (dropFinalNewline c)
    refine ⟨⟨pre, nl, hp, hnl, ?_⟩, h1, h2, h3⟩
    rw [List.append_assoc pre, ← h4, ← hpre]
    exact hc
  · intro ht
    obtain ⟨pre, nl, hp, hnl, hc⟩ := ht.text
    have hd : radsPrefix (dropFinalNewline c) = (typ, name ++ versionSuffix version) := by
      rw [hc, dropFinalNewline_append (radsText_last hw ht.name_ne ht.name_word ht.version_ok) hnl,
        radsPrefix_name hp ht.name_ne (word_not_mem hw.1 ht.name_word) (versionSuffix_head _)]
    rw [hd]
    exact ⟨(name, version), (radsNameVersion_iff hw _ _ _).2 ⟨ht.name_ne, ht.name_word, ht.version_ok, rfl⟩, rfl⟩

/-! ## Versions -/

theorem digits_int10 {d : Str} (h : Digits d) : intOrErr d = .ok (digitsNumber d : Int) := by
  have : int10 d = some (Spec.decimal d : Int) := int10_decimal d h.2 h.1
  unfold intOrErr
  rw [this]
  rfl

theorem digits_mapM {ds : List Str} (h : ∀ d ∈ ds, Digits d) : ds.mapM intOrErr = .ok (ds.map fun d => (digitsNumber d : Int)) := by
  induction ds with
  | nil => rfl
  | cons d ds ih =>
    rw [List.mapM_cons, digits_int10 (h d (by simp)), ih (fun x hx => h x (by simp [hx]))]
    rfl

theorem digits_split {ds : List Str} (h1 : ds ≠ []) (h : ∀ d ∈ ds, Digits d) : splitChar '.' (join ['.'] ds) = ds := by
  apply splitChar_join h1
  intro p hp hdot
  exact absurd ((h p hp).2 '.' hdot) (by decide +kernel)

theorem digits_join_ne {ds : List Str} (h1 : ds ≠ []) (h : ∀ d ∈ ds, Digits d) : join ['.'] ds ≠ [] := by
  intro h0
  have h2 := digits_split h1 h
  rw [h0] at h2
  have h3 : splitChar '.' [] = [[]] := rfl
  rw [h3] at h2
  exact (h [] (by rw [← h2]; simp)).1 rfl

theorem radsVersion_digits {ds : List Str} (h1 : ds ≠ []) (h : ∀ d ∈ ds, Digits d) :
    radsVersion (.str (join ['.'] ds)) =
      if ds.length = 4 then .ok ⟨join ['.'] ds, .nums (ds.map fun d => (digitsNumber d : Int))⟩ else .error .assertion := by
  unfold radsVersion baseVersion
  have hne : (join ['.'] ds).isEmpty = false := by
    rw [Bool.eq_false_iff, ne_eq, List.isEmpty_iff]
    exact digits_join_ne h1 h
  simp only [hne, digits_split h1 h, digits_mapM h]
  simp only [Bool.false_eq_true, if_false, bind, Except.bind, List.length_map]
  rfl

/-- Versions of the grammar which are accepted: exactly those made of four numbers -/
theorem radsVersion_iff {v : Str} (hv : RadsVersionText v) (x : Version) : radsVersion (.str v) = .ok x ↔ FourNumbers v x := by
  constructor
  · intro h
    rcases hv with rfl | rfl | ⟨ds, h1, h2, rfl⟩
    · simp [radsVersion, baseVersion, bind, Except.bind] at h
    · have : radsVersion (.str "main".toList) = .error .value := by decide +kernel
      rw [this] at h; simp at h
    · rw [radsVersion_digits h1 h2] at h
      split at h
      · rename_i h4
        simp only [Except.ok.injEq] at h
        match ds, h4 with
        | [a, b, c, d], _ =>
          exact ⟨a, b, c, d, h2 a (by simp), h2 b (by simp), h2 c (by simp), h2 d (by simp), rfl, h.symm⟩
      · simp at h
  · rintro ⟨a, b, c, d, ha, hb, hc, hd, rfl, rfl⟩
    rw [radsVersion_digits (by simp)]
    · rfl
    · intro y hy
      simp only [List.mem_cons, List.not_mem_nil, or_false] at hy
      rcases hy with rfl | rfl | rfl | rfl <;> assumption

theorem fourNumbers_ne {v : Str} {x : Version} (h : FourNumbers v x) : v ≠ [] := by
  obtain ⟨a, b, c, d, ha, hb, hc, hd, rfl, rfl⟩ := h
  apply digits_join_ne (by simp)
  intro y hy
  simp only [List.mem_cons, List.not_mem_nil, or_false] at hy
  rcases hy with rfl | rfl | rfl | rfl <;> assumption

theorem mapM_rads {α β : Type} (f : α → Res β) (l : List α) (r : List β) : l.mapM f = .ok r ↔ List.Forall₂ (fun x y => f x = .ok y) l r := by
  induction l generalizing r with
  | nil => simp [pure, Except.pure, eq_comm]
  | cons a l ih =>
    rw [List.mapM_cons]
    constructor
    · intro h
      rcases ha : f a with e | b
      · rw [ha] at h; simp [bind, Except.bind] at h
      · rcases hl : l.mapM f with e | bs
        · rw [ha, hl] at h; simp [bind, Except.bind] at h
        · rw [ha, hl] at h
          simp only [bind, Except.bind, pure, Except.pure, Except.ok.injEq] at h
          subst h
          exact .cons ha ((ih bs).1 hl)
    · intro h
      cases h with
      | cons h1 h2 =>
        rw [h1, (ih _).2 h2]
        rfl

/-- The first of the sorted versions: the first one among the newest -/
theorem sort_head (vs : List Version) (x : Version) : (∃ r, sortVersions vs = x :: r) ↔
    ∃ xs ys, vs = xs ++ x :: ys ∧ (∀ y ∈ xs, y.tuple < x.tuple) ∧ ∀ y ∈ ys, ¬ x.tuple < y.tuple := by
  induction vs generalizing x with
  | nil => simp [sortVersions]
  | cons a vs ih =>
    have hstep : sortVersions (a :: vs) = (sortVersions vs).orderedInsert (fun a b => tupleCmp .ge a.tuple b.tuple = true) a := rfl
    rw [hstep]
    cases hs : sortVersions vs with
    | nil =>
      have hvs : vs = [] := by
        have hp : (sortVersions vs).Perm vs := List.perm_insertionSort _ _
        rw [hs] at hp
        exact List.nil_perm.1 hp
      subst hvs
      simp only [List.orderedInsert, List.cons.injEq]
      constructor
      · rintro ⟨r, rfl, -⟩; exact ⟨[], [], rfl, by simp, by simp⟩
      · rintro ⟨xs, ys, h, -⟩
        cases xs with
        | nil => simp only [List.nil_append, List.cons.injEq] at h; exact ⟨[], h.1, rfl⟩
        | cons z zs => simp at h
    | cons b bs =>
      obtain ⟨xs0, ys0, hvs, hb1, hb2⟩ := (ih b).1 ⟨bs, hs⟩
      have hmax : ∀ y ∈ vs, ¬ b.tuple < y.tuple := by
        intro y hy
        rw [hvs] at hy
        rcases List.mem_append.1 hy with hy | hy
        · exact List.lt_asymm (hb1 y hy)
        · rcases List.mem_cons.1 hy with rfl | hy
          · exact List.lt_irrefl _
          · exact hb2 y hy
      have hbm : b ∈ vs := by rw [hvs]; simp
      by_cases hab : tupleCmp .ge a.tuple b.tuple = true
      · rw [List.orderedInsert, if_pos hab]
        simp only [List.cons.injEq]
        have hab' := (tuple_ge_iff _ _).1 hab
        constructor
        · rintro ⟨r, rfl, -⟩
          refine ⟨[], vs, rfl, by simp, ?_⟩
          intro y hy hlt
          exact hmax y hy (lt_of_le_of_lt (le_of_not_gt hab') hlt)
        · rintro ⟨xs, ys, h, h1, h2⟩
          cases xs with
          | nil => simp only [List.nil_append, List.cons.injEq] at h; exact ⟨_, h.1, rfl⟩
          | cons z zs =>
            exfalso
            simp only [List.cons_append, List.cons.injEq] at h
            obtain ⟨rfl, rfl⟩ := h
            have := h1 a (by simp)
            have hx := hmax x (by simp)
            exact hab' (lt_of_lt_of_le this (le_of_not_gt hx))
      · rw [List.orderedInsert, if_neg hab]
        simp only [List.cons.injEq]
        have hab' : a.tuple < b.tuple := by
          by_contra hn
          exact hab ((tuple_ge_iff _ _).2 hn)
        constructor
        · rintro ⟨r, rfl, -⟩
          refine ⟨a :: xs0, ys0, by rw [hvs]; rfl, ?_, hb2⟩
          intro y hy
          rcases List.mem_cons.1 hy with rfl | hy
          · exact hab'
          · exact hb1 y hy
        · rintro ⟨xs, ys, h, h1, h2⟩
          cases xs with
          | nil =>
            exfalso
            simp only [List.nil_append, List.cons.injEq] at h
            obtain ⟨rfl, rfl⟩ := h
            exact h2 b hbm hab'
          | cons z zs =>
            simp only [List.cons_append, List.cons.injEq] at h
            obtain ⟨rfl, hv⟩ := h
            obtain ⟨r, hr⟩ := (ih x).2 ⟨zs, ys, hv, fun y hy => h1 y (by simp [hy]), h2⟩
            rw [hs] at hr
            simp only [List.cons.injEq] at hr
            exact ⟨_, hr.1, rfl⟩

theorem older_iff {a b : Version} (ha : ∃ t, a.t = .nums t) (hb : ∃ t, b.t = .nums t) : OlderThan a b ↔ a.tuple < b.tuple := by
  obtain ⟨t, ht⟩ := ha
  obtain ⟨u, hu⟩ := hb
  unfold OlderThan Version.tuple
  rw [ht, hu]
  constructor
  · rintro ⟨t', u', h1, h2, h3⟩
    cases h1; cases h2
    exact h3
  · intro h
    exact ⟨t, u, rfl, rfl, h⟩

theorem isKind_iff (typ : Option Char) (name pre : Str) (hp : RadsPrefix typ pre) (k : RadsKind) : IsKind typ name k ↔
    (match typ with
      | some c => if c = 's' then RadsKind.solution else .project
      | none => if name = "patch".toList then .patch else if endsWith name "_sln".toList then .solution else .project) = k := by
  cases hp with
  | solution =>
    constructor
    · rintro ⟨⟩; rfl
    · intro h; cases h; exact .s _
  | project =>
    constructor
    · rintro ⟨⟩; rfl
    · intro h; cases h; exact .p _
  | none =>
    simp only
    have hps : ¬ ∃ n, "patch".toList = n ++ "_sln".toList := by
      rw [← endsWith_iff]; decide +kernel
    generalize hpt : "patch".toList = pt at *
    generalize hsl : "_sln".toList = sl at *
    constructor
    · intro h
      cases h with
      | patch => rw [if_pos hpt]
      | sln n =>
        rw [hsl, if_neg, if_pos (endsWith_iff.2 ⟨n, rfl⟩)]
        intro he; exact hps ⟨n, he.symm⟩
      | other _ h1 h2 =>
        rw [hpt] at h1
        rw [hsl] at h2
        rw [if_neg h1, if_neg]
        intro he
        obtain ⟨n, hn⟩ := endsWith_iff.1 he
        exact h2 n hn
    · intro h
      split at h
      · rename_i h1
        subst h; rw [h1, ← hpt]; exact .patch
      · rename_i h1
        split at h
        · rename_i h2
          obtain ⟨n, rfl⟩ := endsWith_iff.1 h2
          subst h; rw [← hsl]; exact .sln n
        · rename_i h2
          subst h
          refine .other name (by rw [hpt]; exact h1) ?_
          intro n hn
          rw [hsl] at hn
          exact h2 (endsWith_iff.2 ⟨n, hn⟩)

theorem firstOf_ok {α : Type} {l : List α} {x : α} : firstOf l = .ok x ↔ ∃ r, l = x :: r := by
  cases l with
  | nil => simp [firstOf]
  | cons a l => simp [firstOf, eq_comm]

theorem project_latest (text : Str) (x : Version) : (projectVersions text).bind firstOf = .ok x ↔
    ∃ xs, List.Forall₂ (fun l y => radsVersion (.str l) = .ok y) (splitlines text) (x :: xs) := by
  unfold projectVersions
  constructor
  · intro h
    rcases hm : (splitlines text).mapM fun l => radsVersion (.str l) with e | vs
    · rw [hm] at h; simp [Except.bind] at h
    · rw [hm] at h
      obtain ⟨r, rfl⟩ := firstOf_ok.1 h
      exact ⟨r, (mapM_rads _ _ _).1 hm⟩
  · rintro ⟨xs, h⟩
    rw [(mapM_rads _ _ _).2 h]
    rfl

theorem solution_latest (text : Str) (x : Version) : (solutionVersions (splitlines text)).bind firstOf = .ok x ↔
    ∃ xs ys, List.Forall₂ (fun l y => radsVersion (.str l) = .ok y) (splitlines text) (xs ++ x :: ys) ∧
      (∀ y ∈ xs, OlderThan y x) ∧ ∀ y ∈ ys, ¬ OlderThan x y := by
  have hnum : ∀ {ls : List Str} {vs : List Version}, List.Forall₂ (fun l y => radsVersion (.str l) = .ok y) ls vs → ∀ v ∈ vs, ∃ t, v.t = .nums t := by
    intro ls vs h
    induction h with
    | nil => simp
    | cons h1 _ ih =>
      intro v hv
      rcases List.mem_cons.1 hv with rfl | hv
      · obtain ⟨-, a, b, c, d, h⟩ := radsVersion_ok h1
        exact ⟨_, h⟩
      · exact ih v hv
  unfold solutionVersions
  constructor
  · intro h
    rcases hm : (splitlines text).mapM fun l => radsVersion (.str l) with e | vs
    · rw [hm] at h; simp [bind, Except.bind] at h
    · rw [hm] at h
      have h : firstOf (sortVersions vs) = .ok x := h
      obtain ⟨xs, ys, rfl, h1, h2⟩ := (sort_head vs x).1 (firstOf_ok.1 h)
      have hf := (mapM_rads _ _ _).1 hm
      have hn := hnum hf
      refine ⟨xs, ys, hf, ?_, ?_⟩
      · intro y hy
        exact (older_iff (hn y (by simp [hy])) (hn x (by simp))).2 (h1 y hy)
      · intro y hy
        rw [older_iff (hn x (by simp)) (hn y (by simp [hy]))]
        exact h2 y hy
  · rintro ⟨xs, ys, hf, h1, h2⟩
    have hn := hnum hf
    rw [(mapM_rads _ _ _).2 hf]
    show firstOf (sortVersions (xs ++ x :: ys)) = .ok x
    rw [firstOf_ok]
    refine (sort_head _ x).2 ⟨xs, ys, rfl, ?_, ?_⟩
    · intro y hy
      exact (older_iff (hn y (by simp [hy])) (hn x (by simp))).1 (h1 y hy)
    · intro y hy
      rw [← older_iff (hn x (by simp)) (hn y (by simp [hy]))]
      exact h2 y hy

/-- What the model does for a kind -/
def parseKind (st : RadsLookup) (name : Str) : RadsKind → Option Str → Res RadsComponent
  | .project, none => .ok (.obj (.project name))
  | .solution, none => .ok (.obj (.solution name))
  | .patch, none => .error .value
  | .project, some v => if v = [] then (do
      let text ← st.project name
      let vs ← projectVersions text
      let x ← firstOf vs
      .ok (.obj (.projectVersion name x))) else (do
      let x ← radsVersion (.str v)
      .ok (.obj (.projectVersion name x)))
  | .solution, some v => if v = [] then (do
      let text ← st.solution name
      let vs ← solutionVersions (splitlines text)
      let x ← firstOf vs
      .ok (.obj (.solutionVersion name x))) else (do
      let x ← radsVersion (.str v)
      .ok (.obj (.solutionVersion name x)))
  | .patch, some v => do
      let p ← st.patch (if v = [] then none else some (.str v))
      .ok (.patch p)

theorem parse_kind {isWord : Char → Bool} (hw : WordChars isWord) (st : RadsLookup) {c : Str} {typ : Option Char} {name : Str} {version : Option Str}
    {k : RadsKind} (ht : RadsText isWord c typ name version) (hk : IsKind typ name k) :
    parseRadsComponent isWord st c = parseKind st name k version := by
  obtain ⟨pre, nl, hp, -, -⟩ := ht.text
  have hk := (isKind_iff typ name pre hp k).1 hk
  unfold parseRadsComponent
  rw [(matchRads_iff hw c typ name version).2 ht]
  subst hk
  cases hp with
  | solution => cases version <;> rfl
  | project => cases version <;> rfl
  | none =>
    simp only
    have hpp : ("patch".toList = ['p']) = False := by decide +kernel
    have hps : ("patch".toList = ['s']) = False := by decide +kernel
    by_cases h1 : name = "patch".toList
    · simp only [if_pos h1, hpp, hps, if_false]
      cases version <;> rfl
    · simp only [if_neg h1]
      by_cases h2 : endsWith name "_sln".toList = true
      · simp only [if_pos h2]
        cases version <;> rfl
      · simp only [if_neg h2]
        cases version <;> rfl

theorem kind_exists {typ : Option Char} {pre : Str} (hp : RadsPrefix typ pre) (name : Str) : ∃ k, IsKind typ name k :=
  ⟨_, (isKind_iff typ name pre hp _).2 rfl⟩

theorem kind_unique {typ : Option Char} {pre : Str} (hp : RadsPrefix typ pre) {name : Str} {k k' : RadsKind} (h : IsKind typ name k) (h' : IsKind typ name k') :
    k = k' := by
  rw [isKind_iff typ name pre hp] at h h'
  rw [← h, ← h']

theorem denotes_iff (st : RadsLookup) (name : Str) (k : RadsKind) (version : Option Str) (hv : ∀ v, version = some v → RadsVersionText v) (r : RadsComponent) :
    parseKind st name k version = .ok r ↔ Denotes st name k version r := by
  cases version with
  | none =>
    cases k with
    | project =>
      simp only [parseKind, Except.ok.injEq]
      exact ⟨by rintro rfl; exact .project, by rintro ⟨⟩; rfl⟩
    | solution =>
      simp only [parseKind, Except.ok.injEq]
      exact ⟨by rintro rfl; exact .solution, by rintro ⟨⟩; rfl⟩
    | patch =>
      simp only [parseKind]
      exact ⟨by simp, by rintro ⟨⟩⟩
  | some v =>
    have hv := hv v rfl
    cases k with
    | project =>
      simp only [parseKind]
      by_cases h0 : v = []
      · subst h0
        rw [if_pos rfl]
        constructor
        · intro h
          rcases ht : st.project name with e | text
          · rw [ht] at h; simp [bind, Except.bind] at h
          · rw [ht] at h
            rcases hm : projectVersions text with e' | vs
            · simp [bind, Except.bind, hm] at h
            · rcases hx : firstOf vs with e | x
              · simp [bind, Except.bind, hm, hx] at h
              · simp only [bind, Except.bind, hm, hx, Except.ok.injEq] at h
                subst h
                obtain ⟨xs, hxs⟩ := (project_latest text x).1 (by rw [hm]; exact hx)
                exact .latestProject ht hxs
        · intro h
          cases h with
          | projectVersion h => exact absurd rfl (fourNumbers_ne h)
          | latestProject h1 h2 =>
            rename_i text x xs
            have hx := (project_latest text x).2 ⟨xs, h2⟩
            rcases hm : projectVersions text with e' | vs
            · rw [hm] at hx; simp [Except.bind] at hx
            · rw [hm] at hx
              simp only [Except.bind] at hx
              simp only [h1, hm, hx, bind, Except.bind]
      · rw [if_neg h0]
        constructor
        · intro h
          rcases hx : radsVersion (.str v) with e | x
          · rw [hx] at h; simp [bind, Except.bind] at h
          · rw [hx] at h
            simp only [bind, Except.bind, Except.ok.injEq] at h
            subst h
            exact .projectVersion ((radsVersion_iff hv x).1 hx)
        · intro h
          cases h with
          | projectVersion h =>
            rw [(radsVersion_iff hv _).2 h]
            rfl
          | latestProject h1 h2 => exact absurd rfl h0
    | solution =>
      simp only [parseKind]
      by_cases h0 : v = []
      · subst h0
        rw [if_pos rfl]
        constructor
        · intro h
          rcases ht : st.solution name with e | text
          · rw [ht] at h; simp [bind, Except.bind] at h
          · rw [ht] at h
            rcases hm : solutionVersions (splitlines text) with e' | vs
            · simp [bind, Except.bind, hm] at h
            · rcases hx : firstOf vs with e | x
              · simp [bind, Except.bind, hm, hx] at h
              · simp only [bind, Except.bind, hm, hx, Except.ok.injEq] at h
                subst h
                obtain ⟨xs, ys, a1, a2, a3⟩ := (solution_latest text x).1 (by rw [hm]; exact hx)
                exact .latestSolution ht a1 a2 a3
        · intro h
          cases h with
          | solutionVersion h => exact absurd rfl (fourNumbers_ne h)
          | latestSolution h1 h2 h3 h4 =>
            rename_i text x xs ys
            have hx := (solution_latest text x).2 ⟨xs, ys, h2, h3, h4⟩
            rcases hm : solutionVersions (splitlines text) with e' | vs
            · rw [hm] at hx; simp [Except.bind] at hx
            · rw [hm] at hx
              simp only [Except.bind] at hx
              simp only [h1, hm, hx, bind, Except.bind]
      · rw [if_neg h0]
        constructor
        · intro h
          rcases hx : radsVersion (.str v) with e | x
          · rw [hx] at h; simp [bind, Except.bind] at h
          · rw [hx] at h
            simp only [bind, Except.bind, Except.ok.injEq] at h
            subst h
            exact .solutionVersion ((radsVersion_iff hv x).1 hx)
        · intro h
          cases h with
          | solutionVersion h =>
            rw [(radsVersion_iff hv _).2 h]
            rfl
          | latestSolution h1 h2 h3 h4 => exact absurd rfl h0
    | patch =>
      simp only [parseKind]
      constructor
      · intro h
        rcases hx : st.patch (if v = [] then none else some (.str v)) with e | p
        · rw [hx] at h; simp [bind, Except.bind] at h
        · rw [hx] at h
          simp only [bind, Except.bind, Except.ok.injEq] at h
          subst h
          by_cases h0 : v = []
          · rw [if_pos h0] at hx; subst h0; exact .latestPatch hx
          · rw [if_neg h0] at hx; exact .patch h0 hx
      · intro h
        cases h with
        | patch h0 h => rw [if_neg h0, h]; rfl
        | latestPatch h => rw [if_pos rfl, h]; rfl

/-- Component strings which are accepted are those of the grammar; the result is what they stand for. -/
theorem C68_parse {isWord : Char → Bool} (hw : WordChars isWord) (st : RadsLookup) (c : Str) (r : RadsComponent) :
    parseRadsComponent isWord st c = .ok r ↔
      ∃ typ name version k, RadsText isWord c typ name version ∧ IsKind typ name k ∧ Denotes st name k version r := by
  constructor
  · intro h
    rcases hm : matchRads isWord c with _ | ⟨typ, name, version⟩
    · unfold parseRadsComponent at h
      rw [hm] at h; simp at h
    · have ht := (matchRads_iff hw c typ name version).1 hm
      obtain ⟨pre, nl, hp, -, -⟩ := ht.text
      obtain ⟨k, hk⟩ := kind_exists hp name
      rw [parse_kind hw st ht hk] at h
      exact ⟨typ, name, version, k, ht, hk, (denotes_iff st name k version ht.version_ok r).1 h⟩
  · rintro ⟨typ, name, version, k, ht, hk, hd⟩
    rw [parse_kind hw st ht hk]
    exact (denotes_iff st name k version ht.version_ok r).2 hd

/-- A component string can be read in one way only. -/
theorem C68_unambiguous {isWord : Char → Bool} (hw : WordChars isWord) (c : Str) {typ typ' : Option Char} {name name' : Str} {version version' : Option Str}
    {k k' : RadsKind} (h : RadsText isWord c typ name version) (h' : RadsText isWord c typ' name' version') (hk : IsKind typ name k) (hk' : IsKind typ' name' k') :
    typ = typ' ∧ name = name' ∧ version = version' ∧ k = k' := by
  have h1 := (matchRads_iff hw c typ name version).2 h
  rw [(matchRads_iff hw c typ' name' version').2 h'] at h1
  simp only [Option.some.injEq, Prod.mk.injEq] at h1
  obtain ⟨rfl, rfl, rfl⟩ := h1
  obtain ⟨pre, nl, hp, -, -⟩ := h.text
  exact ⟨rfl, rfl, rfl, kind_unique hp hk hk'⟩

/-- Other strings are refused with `ValueError`. So are patches without a version, and versions `main` of projects and solutions; versions of projects and
solutions which are not made of four numbers fail with `AssertionError`; and the latest version fails with `IndexError` when no version is listed. -/
theorem C68_errors {isWord : Char → Bool} (hw : WordChars isWord) (st : RadsLookup) (c : Str) :
    ((¬ ∃ typ name version, RadsText isWord c typ name version) → parseRadsComponent isWord st c = .error .value) ∧
    (∀ typ name version, RadsText isWord c typ name version →
      (IsKind typ name .patch → version = none → parseRadsComponent isWord st c = .error .value) ∧
      (¬ IsKind typ name .patch → version = some "main".toList → parseRadsComponent isWord st c = .error .value) ∧
      (¬ IsKind typ name .patch → ∀ ds : List Str, ds ≠ [] → ds.length ≠ 4 → (∀ d ∈ ds, Digits d) → version = some (join ['.'] ds) →
        parseRadsComponent isWord st c = .error .assertion) ∧
      (IsKind typ name .project → version = some [] → st.project name = .ok [] → parseRadsComponent isWord st c = .error .index) ∧
      (IsKind typ name .solution → version = some [] → st.solution name = .ok [] → parseRadsComponent isWord st c = .error .index)) := by
  constructor
  · intro h
    rcases hm : matchRads isWord c with _ | ⟨typ, name, version⟩
    · unfold parseRadsComponent
      rw [hm]
    · exact absurd ⟨typ, name, version, (matchRads_iff hw c typ name version).1 hm⟩ h
  · intro typ name version ht
    obtain ⟨pre, nl, hp, -, -⟩ := ht.text
    obtain ⟨k, hk⟩ := kind_exists hp name
    refine ⟨?_, ?_, ?_, ?_, ?_⟩
    · rintro hk rfl
      rw [parse_kind hw st ht hk]
      rfl
    · rintro hn rfl
      rw [parse_kind hw st ht hk]
      have hne : "main".toList ≠ [] := by decide +kernel
      have hm : radsVersion (.str "main".toList) = .error .value := by decide +kernel
      cases k with
      | patch => exact absurd hk hn
      | project => simp only [parseKind, if_neg hne, hm]; rfl
      | solution => simp only [parseKind, if_neg hne, hm]; rfl
    · rintro hn ds h1 h2 h3 rfl
      rw [parse_kind hw st ht hk]
      have hm := radsVersion_digits h1 h3
      rw [if_neg h2] at hm
      have hne := digits_join_ne h1 h3
      cases k with
      | patch => exact absurd hk hn
      | project => simp only [parseKind, if_neg hne, hm]; rfl
      | solution => simp only [parseKind, if_neg hne, hm]; rfl
    · rintro hk rfl h
      rw [parse_kind hw st ht hk]
      simp only [parseKind, if_true, h]
      rfl
    · rintro hk rfl h
      rw [parse_kind hw st ht hk]
      simp only [parseKind, if_true, h]
      rfl

/-- The component string of an object is parsed to this object, without the server. -/
theorem C68_roundtrip {isWord : Char → Bool} (hw : WordChars isWord) (st : RadsLookup) (a : RadsObj) (ha : RadsNamed isWord a) :
    parseRadsComponent isWord st (radsText a) = .ok (.obj a) := by
  rw [C68_parse hw]
  have hv : ∀ v, (radsVersionOf a).map (·.s) = some v → RadsVersionText v := by
    intro v hv
    rw [Option.map_eq_some_iff] at hv
    obtain ⟨x, hx, rfl⟩ := hv
    obtain ⟨p, q, r, s, h1, h2, h3, h4, h5, -⟩ := ha.version x hx
    refine Or.inr (Or.inr ⟨[p, q, r, s], by simp, ?_, h5⟩)
    intro y hy
    simp only [List.mem_cons, List.not_mem_nil, or_false] at hy
    rcases hy with rfl | rfl | rfl | rfl <;> assumption
  cases a with
  | solution n =>
    exact ⟨some 's', n, none, .solution, ⟨⟨_, [], .solution, Or.inl rfl, by simp [radsText, radsClass, radsName, radsVersionOf]⟩, ha.name_ne, ha.name_word, by simp⟩,
      .s _, .solution⟩
  | project n =>
    exact ⟨some 'p', n, none, .project, ⟨⟨_, [], .project, Or.inl rfl, by simp [radsText, radsClass, radsName, radsVersionOf]⟩, ha.name_ne, ha.name_word, by simp⟩,
      .p _, .project⟩
  | solutionVersion n x =>
    exact ⟨some 's', n, some x.s, .solution, ⟨⟨_, [], .solution, Or.inl rfl, by simp [radsText, radsClass, radsName, radsVersionOf]⟩, ha.name_ne, ha.name_word, hv⟩,
      .s _, .solutionVersion (ha.version x rfl)⟩
  | projectVersion n x =>
    exact ⟨some 'p', n, some x.s, .project, ⟨⟨_, [], .project, Or.inl rfl, by simp [radsText, radsClass, radsName, radsVersionOf]⟩, ha.name_ne, ha.name_word, hv⟩,
      .p _, .projectVersion (ha.version x rfl)⟩

/-- What `str` gives is never a component string. -/
theorem C68_str {isWord : Char → Bool} (hw : WordChars isWord) (st : RadsLookup) (a : RadsObj) : parseRadsComponent isWord st a.str = .error .value := by
  apply (C68_errors hw st a.str).1
  have hstr : ∃ x, a.str = ['r', 'a', 'd', 's'] ++ ':' :: x := by
    cases a <;> exact ⟨_, rfl⟩
  obtain ⟨x, hx⟩ := hstr
  rintro ⟨typ, name, version, ht⟩
  obtain ⟨pre, nl, hp, hnl, hc⟩ := ht.text
  rw [hx] at hc
  cases hp with
  | solution => simp at hc
  | project => simp at hc
  | none =>
    rw [List.nil_append, List.append_assoc] at hc
    have hhead : ∀ y ∈ (versionSuffix version ++ nl).head?, y = '=' ∨ y = '\n' := by
      intro y hy
      cases version with
      | none => rcases hnl with rfl | rfl <;> simp [versionSuffix] at hy; exact Or.inr hy.symm
      | some v => simp [versionSuffix] at hy; exact Or.inl hy.symm
    have hcolon := word_not_mem hw.1 ht.name_word
    rcases List.append_eq_append_iff.1 hc with ⟨u, h1, h2⟩ | ⟨u, h1, h2⟩
    · cases u with
      | nil =>
        rw [List.nil_append] at h2
        have := hhead ':' (by rw [← h2]; simp)
        simp at this
      | cons y u =>
        simp only [List.cons_append, List.cons.injEq] at h2
        rw [h1, ← h2.1] at hcolon
        simp at hcolon
    · cases u with
      | nil =>
        rw [List.nil_append] at h2
        have := hhead ':' (by rw [h2]; simp)
        simp at this
      | cons y u =>
        have h3 := hhead y (by rw [h2]; simp)
        have h4 : y ∈ ['r', 'a', 'd', 's'] := by rw [h1]; simp
        simp only [List.mem_cons, List.not_mem_nil, or_false] at h4
        rcases h3 with rfl | rfl <;> simp at h4

/-! ## Identity and order -/

/-- Objects are equal when their class, their name and the text of their version are; equal objects have the same hash. -/
theorem C68_eq (a b : RadsObj) : (a.eq b = true ↔ SameRads a b) ∧ (a.eq b = true → ∀ h pair, a.hash h pair = b.hash h pair) := by
  have key : a.eq b = true ↔ SameRads a b := by
    cases a <;> cases b <;> simp [RadsObj.eq, SameRads, radsClass, radsName, radsVersionOf, Version.eq]
  refine ⟨key, ?_⟩
  intro h hh pair
  obtain ⟨h1, h2, h3⟩ := key.1 h
  cases a <;> cases b <;> simp [radsClass, radsName, radsVersionOf] at h1 h2 h3 <;> simp [RadsObj.hash, Version.hash, h2, h3]

theorem lt_type {a b : RadsObj} (h : radsClass a ≠ radsClass b) : a.lt b = .error .type := by
  cases a <;> cases b <;> simp [radsClass] at h <;> rfl

/-- Objects of the same class are ordered by name, then from the newest version; others cannot be compared. -/
theorem C68_lt (a b : RadsObj) (ha : RadsNumbers a) (hb : RadsNumbers b) :
    (radsClass a ≠ radsClass b → a.lt b = .error .type) ∧
    (radsClass a = radsClass b → ∃ r, a.lt b = .ok r ∧ (r = true ↔ Before a b)) := by
  refine ⟨lt_type, ?_⟩
  intro hc
  have hver : ∀ (n n' : Str) (v v' : Version), (∃ t, v.t = .nums t) → (∃ t, v'.t = .nums t) →
      ∃ r, (if n < n' then .ok true else if n = n' then v.cmp .gt v' else .ok false : Res Bool) = .ok r ∧
        (r = true ↔ (n < n' ∨ n = n' ∧ OlderThan v' v)) := by
    intro n n' v v' hv hv'
    rw [older_iff hv' hv]
    obtain ⟨t, ht⟩ := hv
    obtain ⟨u, hu⟩ := hv'
    by_cases h1 : n < n'
    · exact ⟨true, by rw [if_pos h1], by simp [h1]⟩
    · by_cases h2 : n = n'
      · refine ⟨_, by rw [if_neg h1, if_pos h2, Version.cmp, ht, hu], ?_⟩
        rw [tupleCmp_gt, tupleCmp_lt, decide_eq_true_eq]
        simp [h1, h2, Version.tuple, ht, hu]
      · exact ⟨false, by rw [if_neg h1, if_neg h2], by simp [h1, h2]⟩
  unfold Before
  cases a <;> cases b <;> simp only [radsClass, reduceCtorEq, OfNat.ofNat_ne_zero, OfNat.zero_ne_ofNat, Nat.reduceEqDiff, zero_ne_one, one_ne_zero] at hc
  · exact ⟨_, rfl, by simp [radsName, radsVersionOf]⟩
  · exact ⟨_, rfl, by simp [radsName, radsVersionOf]⟩
  · rename_i n v n' v'
    obtain ⟨r, h1, h2⟩ := hver n n' v v' (ha v rfl) (hb v' rfl)
    exact ⟨r, h1, by rw [h2]; simp [radsName, radsVersionOf]⟩
  · rename_i n v n' v'
    obtain ⟨r, h1, h2⟩ := hver n n' v v' (ha v rfl) (hb v' rfl)
    exact ⟨r, h1, by rw [h2]; simp [radsName, radsVersionOf]⟩

theorem Spec.OlderThan.trans {a b c : Version} (h : OlderThan a b) (h' : OlderThan b c) : OlderThan a c := by
  obtain ⟨t, u, h1, h2, h3⟩ := h
  obtain ⟨u', v, h4, h5, h6⟩ := h'
  rw [h2] at h4; cases h4
  exact ⟨t, v, h1, h5, lt_trans h3 h6⟩

/-- The order is strict, and total on the versions of a class when their texts are the usual ones. -/
theorem C68_order (a b c : RadsObj) :
    ¬ Before a a ∧ (Before a b → Before b c → Before a c) ∧
    (RadsCanonical a → RadsCanonical b → radsClass a = radsClass b → (¬ Before a b ∧ ¬ Before b a ↔ a.eq b = true)) := by
  have irr : ∀ v : Version, ¬ OlderThan v v := by
    rintro v ⟨t, u, h1, h2, h3⟩
    rw [h1] at h2; cases h2
    exact lt_irrefl _ h3
  refine ⟨?_, ?_, ?_⟩
  · rintro (h | ⟨-, v, w, h1, h2, h3⟩)
    · exact lt_irrefl _ h
    · rw [h1] at h2; cases h2
      exact irr _ h3
  · rintro (h | ⟨h0, v, w, h1, h2, h3⟩) (h' | ⟨h0', v', w', h1', h2', h3'⟩)
    · exact Or.inl (lt_trans h h')
    · exact Or.inl (by rw [← h0']; exact h)
    · exact Or.inl (by rw [h0]; exact h')
    · rw [h2] at h1'; cases h1'
      exact Or.inr ⟨h0.trans h0', v, w', h1, h2', Spec.OlderThan.trans h3' h3⟩
  · intro ha hb hc
    rw [(C68_eq a b).1]
    unfold SameRads Before
    constructor
    · rintro ⟨g1, g2⟩
      push Not at g1 g2
      have hn : radsName a = radsName b := le_antisymm g2.1 g1.1
      refine ⟨hc, hn, ?_⟩
      replace g1 := g1.2 hn
      replace g2 := g2.2 hn.symm
      cases a <;> cases b <;> simp only [radsClass, reduceCtorEq, OfNat.ofNat_ne_zero, OfNat.zero_ne_ofNat, Nat.reduceEqDiff, zero_ne_one, one_ne_zero] at hc
      · rfl
      · rfl
      all_goals
        rename_i n v n' v'
        obtain ⟨t, -, ht, hs⟩ := ha v rfl
        obtain ⟨u, -, hu, hs'⟩ := hb v' rfl
        have h1 := g1 v v' rfl rfl
        have h2 := g2 v' v rfl rfl
        rw [older_iff ⟨_, hu⟩ ⟨_, ht⟩] at h1
        rw [older_iff ⟨_, ht⟩ ⟨_, hu⟩] at h2
        have : v'.tuple = v.tuple := le_antisymm (not_lt.1 h2) (not_lt.1 h1)
        simp only [Version.tuple, ht, hu] at this
        simp only [radsVersionOf, Option.map_some, hs, hs', this]
    · rintro ⟨-, hn, hv⟩
      have key : ∀ v w, radsVersionOf a = some v → radsVersionOf b = some w → ¬ OlderThan w v ∧ ¬ OlderThan v w := by
        intro v w h1 h2
        obtain ⟨t, ht0, ht, hs⟩ := ha v h1
        obtain ⟨u, hu0, hu, hs'⟩ := hb w h2
        rw [h1, h2] at hv
        simp only [Option.map_some, Option.some.injEq] at hv
        rw [hs, hs'] at hv
        have := join_showInt_inj ht0 hu0 hv
        subst this
        rw [older_iff ⟨_, hu⟩ ⟨_, ht⟩, older_iff ⟨_, ht⟩ ⟨_, hu⟩]
        simp only [Version.tuple, ht, hu]
        exact ⟨lt_irrefl _, lt_irrefl _⟩
      constructor
      · rintro (h | ⟨-, v, w, h1, h2, h3⟩)
        · rw [hn] at h; exact lt_irrefl _ h
        · exact (key v w h1 h2).1 h3
      · rintro (h | ⟨-, w, v, h1, h2, h3⟩)
        · rw [hn] at h; exact lt_irrefl _ h
        · exact (key v w h2 h1).2 h3

/-- Patch elements are equal when their name and the text of their version are; patches are equal when the text of their version is, whatever their elements.
Patches are ordered from the newest one; `main` cannot be compared to numbers. -/
theorem C68_patches (x y : Elem) (a b : Patch) :
    (x.eq y = true ↔ x.name = y.name ∧ x.version.s = y.version.s) ∧ (x.eq y = true → ∀ h pair, x.hash h pair = y.hash h pair) ∧
    (a.eq b = true ↔ a.version.s = b.version.s) ∧ (a.eq b = true → ∀ h, a.hash h = b.hash h) ∧
    (∀ t u, a.version.t = .nums t → b.version.t = .nums u → ∃ r, a.lt b = .ok r ∧ (r = true ↔ OlderThan b.version a.version)) ∧
    (a.version.t = .main → b.version.t = .main → a.lt b = .ok false) ∧
    (∀ t, a.version.t = .main ∧ b.version.t = .nums t ∨ a.version.t = .nums t ∧ b.version.t = .main → a.lt b = .error .type) := by
  have h1 : x.eq y = true ↔ x.name = y.name ∧ x.version.s = y.version.s := by simp [Elem.eq, Version.eq]
  have h2 : a.eq b = true ↔ a.version.s = b.version.s := by simp [Patch.eq, Version.eq]
  refine ⟨h1, ?_, h2, ?_, ?_, ?_, ?_⟩
  · intro h hh pair
    simp [Elem.hash, Version.hash, h1.1 h]
  · intro h hh
    simp [Patch.hash, Version.hash, h2.1 h]
  · intro t u ht hu
    refine ⟨_, by rw [Patch.lt, Version.cmp, ht, hu], ?_⟩
    rw [tupleCmp_gt, tupleCmp_lt, decide_eq_true_eq, older_iff ⟨_, hu⟩ ⟨_, ht⟩]
    simp only [Version.tuple, ht, hu]
  · intro h h'
    rw [Patch.lt, Version.cmp, h, h']
    rfl
  · rintro t (⟨h, h'⟩ | ⟨h, h'⟩) <;> rw [Patch.lt, Version.cmp, h, h']

/-- What `str` gives for a patch whose version is `main` or numbers is a component string: it gives the patch of this version. -/
theorem C68_patch_str {isWord : Char → Bool} (hw : WordChars isWord) (hp : ∀ c ∈ "patch".toList, isWord c = true) (st : RadsLookup) (a : Patch)
    (ha : a.version.s = "main".toList ∨ ∃ ds : List Str, ds ≠ [] ∧ (∀ d ∈ ds, Digits d) ∧ a.version.s = join ['.'] ds) (p : Option Patch)
    (h : st.patch (some (.str a.version.s)) = .ok p) : parseRadsComponent isWord st a.str = .ok (.patch p) := by
  rw [C68_parse hw]
  have hne : a.version.s ≠ [] := by
    rcases ha with ha | ⟨ds, h1, h2, h3⟩
    · rw [ha]; decide +kernel
    · rw [h3]; exact digits_join_ne h1 h2
  refine ⟨none, "patch".toList, some a.version.s, .patch, ⟨⟨[], [], .none, Or.inl rfl, ?_⟩, by decide +kernel, hp, ?_⟩, .patch, .patch hne h⟩
  · show "patch=".toList ++ a.version.s = [] ++ "patch".toList ++ '=' :: a.version.s ++ []
    have : "patch=".toList = "patch".toList ++ ['='] := by decide +kernel
    rw [this]
    simp
  · rintro v hv
    cases hv
    exact Or.inr ha

/-! ## Listings and downloads -/

/-- The projects (or solutions) of a storage are the entries of its directory with a directory of releases, in their order; a directory which cannot be read
is an error. -/
theorem C68_list (fs : FS) (base kind : Str) (listing : Res (List Str)) :
    (∀ e, listing = .error e → listComponents fs base kind listing = .error e) ∧
    ∀ names, listing = .ok names → ∃ r, listComponents fs base kind listing = .ok r ∧ r.Sublist names ∧ ∀ n, n ∈ r ↔
      n ∈ names ∧ fs (storageFspath base kind ++ '/' :: n ++ "/releases".toList) = some .dir := by
  constructor
  · rintro e rfl; rfl
  · rintro names rfl
    refine ⟨_, rfl, List.filter_sublist, ?_⟩
    intro n
    rw [List.mem_filter, decide_eq_true_eq]

section
variable {cfg : RadsCfg} {site : RadsSite} {served : Str → Option Bytes} {inflate : Bytes → Res Bytes}

/-- Files of a storage that must be there once a solution version has been downloaded -/
def Spec.HasVersion (cfg : RadsCfg) (site : RadsSite) (fs : FS) (name version : Str) (langs : RadsLangs) : Prop :=
  (∃ m, site.solution name version = some m) ∧ (∃ b, fs (storageFspath cfg.base (solutionFile name version "solutionmanifest".toList)) = some (.file b)) ∧
    ∀ p, site.Lists name version langs p → fs (storageFspath cfg.base p) = some (.file (site.file p))

theorem hasVersion_adds {P : Str → Bytes → Prop} {fs fs' : FS} {name version : Str} {langs : RadsLangs} (h : Spec.HasVersion cfg site fs name version langs)
    (ha : Adds P fs fs') : Spec.HasVersion cfg site fs' name version langs := by
  obtain ⟨h1, ⟨b, h2⟩, h3⟩ := h
  exact ⟨h1, ⟨b, ha.1 _ _ h2⟩, fun p hp => ha.1 _ _ (h3 p hp)⟩

theorem downloadVersions_spec (hon : cfg.On site served inflate) (ws : Nat → RadsWorld) (hw : ∀ i, RadsWorldOk served (ws i)) (name : Str) (hn : '/' ∉ name)
    (langs : RadsLangs) (vs : List Version) (hvs : ∀ v ∈ vs, '/' ∉ v.s) (i : Nat) (fs : FS) (hg : GoodRads cfg.base site served cfg.exe fs) :
    Adds (RadsFile cfg.base site served cfg.exe) fs (cfg.downloadVersions ws name langs i fs vs).1 ∧
    ((cfg.downloadVersions ws name langs i fs vs).2 = .ok () →
      ∀ v ∈ vs, Spec.HasVersion cfg site (cfg.downloadVersions ws name langs i fs vs).1 name v.s langs) ∧
    (∀ e, (cfg.downloadVersions ws name langs i fs vs).2 = .error e → ∃ a v b, vs = a ++ v :: b ∧
      (∀ u ∈ a, Spec.HasVersion cfg site (cfg.downloadVersions ws name langs i fs vs).1 name u.s langs)) := by
  induction vs generalizing i fs with
  | nil => exact ⟨.refl _ _, by simp, by simp [RadsCfg.downloadVersions]⟩
  | cons v vs ih =>
    have hp : SolVer.Plain ⟨name, v⟩ := ⟨hn, hvs v (by simp)⟩
    have hadd := (downloadSolution_spec hon (hw i) hg hp langs).1
    rcases hd : cfg.downloadSolution (ws i) fs ⟨name, v⟩ langs with ⟨fs1, e | u⟩
    · rw [hd] at hadd
      have hrun : cfg.downloadVersions ws name langs i fs (v :: vs) = (fs1, .error e) := by
        rw [RadsCfg.downloadVersions, hd]
      rw [hrun]
      exact ⟨hadd, by simp, fun _ _ => ⟨[], v, vs, rfl, by simp⟩⟩
    · rw [hd] at hadd
      have hrun : cfg.downloadVersions ws name langs i fs (v :: vs) = cfg.downloadVersions ws name langs (i + 1) fs1 vs := by
        rw [RadsCfg.downloadVersions, hd]
      have hhas : Spec.HasVersion cfg site fs1 name v.s langs := by
        obtain ⟨⟨m, hm, hb, -⟩, h2⟩ := C63_download hon fs hg [] (by simp) (ws i) (hw i) ⟨name, v⟩ hp langs fs1 hd
        exact ⟨⟨m, hm⟩, hb, h2⟩
      obtain ⟨h1, h2, h3⟩ := ih (fun x hx => hvs x (by simp [hx])) (i + 1) fs1 (adds_good hg hadd)
      rw [hrun]
      refine ⟨hadd.trans h1, ?_, ?_⟩
      · intro hok x hx
        rcases List.mem_cons.1 hx with rfl | hx
        · exact hasVersion_adds hhas h1
        · exact h2 hok x hx
      · intro e he
        obtain ⟨a, x, b, rfl, hax⟩ := h3 e he
        refine ⟨v :: a, x, b, rfl, ?_⟩
        intro y hy
        rcases List.mem_cons.1 hy with rfl | hy
        · exact hasVersion_adds hhas h1
        · exact hax y hy

theorem versions_self {ls : List Str} {vs : List Version} (h : solutionVersions ls = .ok vs) : ∀ v ∈ vs, radsVersion (.str v.s) = .ok v := by
  unfold solutionVersions at h
  rcases hm : ls.mapM fun l => radsVersion (.str l) with e' | ws
  · rw [hm] at h; cases h
  · rw [hm] at h
    cases h
    have hp : (sortVersions ws).Perm ws := List.perm_insertionSort _ _
    intro v hv
    replace hv := hp.subset hv
    have hf := (mapM_rads _ _ _).1 hm
    clear hm hp
    induction hf with
    | nil => simp at hv
    | cons h1 _ ih =>
      rcases List.mem_cons.1 hv with rfl | hv
      · rw [(radsVersion_ok h1).1]; exact h1
      · exact ih hv

/-- Downloading a solution: the files of all the listed versions are then on the disk. If it fails the storage is still in order, nothing was removed, and the
versions that come before the one which failed are on the disk. -/
theorem C68_download (hon : cfg.On site served inflate) (ws : Nat → RadsWorld) (hw : ∀ i, RadsWorldOk served (ws i)) (name : Str) (hn : '/' ∉ name)
    (langs : RadsLangs) (text : Str) (htext : ∀ l ∈ splitlines text, '/' ∉ l) (fs : FS) (hg : GoodRads cfg.base site served cfg.exe fs) (fs' : FS) (r : Res Unit)
    (h : cfg.downloadAllVersions ws name langs (.ok text) fs = (fs', r)) :
    Adds (RadsFile cfg.base site served cfg.exe) fs fs' ∧ GoodRads cfg.base site served cfg.exe fs' ∧
    (r = .ok () → ∀ l ∈ splitlines text, Spec.HasVersion cfg site fs' name l langs) ∧
    (∀ e, r = .error e → (fs' = fs ∧ ∃ l ∈ splitlines text, radsVersion (.str l) = .error e) ∨
      ∃ a v b, (a ++ v :: b).Perm (splitlines text) ∧ (∀ u ∈ a, Spec.HasVersion cfg site fs' name u langs) ∧
        ∀ u ∈ b, ∀ x y, radsVersion (.str v) = .ok x → radsVersion (.str u) = .ok y → ¬ OlderThan x y) := by
  unfold RadsCfg.downloadAllVersions at h
  rcases hv : solutionVersions (splitlines text) with e | vs
  · rw [show (Except.ok text : Res Str).bind (fun t => solutionVersions (splitlines t)) = .error e from hv] at h
    cases h
    refine ⟨.refl _ _, hg, by simp, ?_⟩
    intro e' he'
    cases he'
    refine Or.inl ⟨rfl, ?_⟩
    unfold solutionVersions at hv
    rcases hm : (splitlines text).mapM fun l => radsVersion (.str l) with e' | vs
    · rw [hm] at hv
      cases hv
      have key : ∀ {ls : List Str}, ls.mapM (fun l => radsVersion (.str l)) = .error e → ∃ l ∈ ls, radsVersion (.str l) = .error e := by
        intro ls
        induction ls with
        | nil => intro h; simp [pure, Except.pure] at h
        | cons a ls ih =>
          intro h
          rw [List.mapM_cons] at h
          rcases ha : radsVersion (.str a) with e1 | x
          · rw [ha] at h
            cases h
            exact ⟨a, by simp, ha⟩
          · rcases hl : ls.mapM fun l => radsVersion (.str l) with e1 | xs
            · rw [ha, hl] at h
              cases h
              obtain ⟨l, h1, h2⟩ := ih hl
              exact ⟨l, by simp [h1], h2⟩
            · rw [ha, hl] at h
              cases h
      exact key hm
    · rw [hm] at hv; cases hv
  · rw [show (Except.ok text : Res Str).bind (fun t => solutionVersions (splitlines t)) = .ok vs from hv] at h
    obtain ⟨c1, c2, c3⟩ := C40_versions _ _ hv
    have hperm : ∀ l, l ∈ splitlines text ↔ ∃ v ∈ vs, v.s = l := by
      intro l
      rw [← c1.mem_iff, List.mem_map]
    have hvs : ∀ v ∈ vs, '/' ∉ v.s := fun v hv => htext _ ((hperm _).2 ⟨v, hv, rfl⟩)
    have hspec := downloadVersions_spec hon ws hw name hn langs vs hvs 0 fs hg
    simp only at h
    rw [h] at hspec
    obtain ⟨h1, h2, h3⟩ := hspec
    refine ⟨h1, adds_good hg h1, ?_, ?_⟩
    · intro hr l hl
      obtain ⟨v, hv, rfl⟩ := (hperm l).1 hl
      exact h2 hr v hv
    · intro e he
      obtain ⟨a, v, b, rfl, ha⟩ := h3 e he
      refine Or.inr ⟨a.map (·.s), v.s, b.map (·.s), by simpa using c1, ?_, ?_⟩
      · intro u hu
        obtain ⟨x, hx, rfl⟩ := List.mem_map.1 hu
        exact ha x hx
      · intro u hu x y hx hy hold
        obtain ⟨w, hwb, rfl⟩ := List.mem_map.1 hu
        rw [versions_self hv v (by simp)] at hx
        rw [versions_self hv w (by simp [hwb])] at hy
        cases hx
        simp only [Except.ok.injEq] at hy
        subst hy
        have hge := (List.pairwise_cons.1 (List.pairwise_append.1 c3).2.1).1 w hwb
        obtain ⟨t, u, e1, e2, e3⟩ := hold
        simp only [Version.cmp, e1, e2, Except.ok.injEq] at hge
        exact (tuple_ge_iff _ _).1 hge e3

end

/-! ## Examples -/
namespace C68ex

/-- Letters, digits and underscores -/
def word (c : Char) : Bool := c.isAlphanum || c = '_'

theorem word_ok : WordChars word := ⟨by decide, by decide, by decide⟩

def st : RadsLookup where
  project n := if n = "lol_game_client".toList then .ok "0.0.1.7\n0.0.1.10\n".toList else .error (.http 404)
  solution n := if n = "lol_game_client_sln".toList then .ok "0.0.1.7\n0.0.1.10\n0.0.0.300\n".toList else .error (.http 404)
  patch _ := .ok none

def v10 : Version := ⟨"0.0.1.10".toList, .nums [0, 0, 1, 10]⟩
def v7 : Version := ⟨"0.0.1.7".toList, .nums [0, 0, 1, 7]⟩

/-- `C68_parse`, `C68_errors`: the newest version of a solution, the first one of a project; errors -/
example : parseRadsComponent word st "lol_game_client_sln=".toList = .ok (.obj (.solutionVersion "lol_game_client_sln".toList v10)) := by decide +kernel
example : parseRadsComponent word st "lol_game_client=".toList = .ok (.obj (.projectVersion "lol_game_client".toList v7)) := by decide +kernel
example : parseRadsComponent word st "s:lol_game_client=0.0.1.10\n".toList = .ok (.obj (.solutionVersion "lol_game_client".toList v10)) := by decide +kernel
example : parseRadsComponent word st "p:patch".toList = .ok (.obj (.project "patch".toList)) := by decide +kernel
example : parseRadsComponent word st "patch=7.20".toList = .ok (.patch none) := by decide +kernel
example : parseRadsComponent word st "patch".toList = .error .value := by decide +kernel
example : parseRadsComponent word st "a=main".toList = .error .value := by decide +kernel
example : parseRadsComponent word st "a=1.2".toList = .error .assertion := by decide +kernel
example : parseRadsComponent word st "s:a b".toList = .error .value := by decide +kernel

theorem digits_dec {s : Str} (h : (s ≠ [] ∧ s.all fun c => decide (c ∈ "0123456789".toList)) = true) : Digits s := by
  simp only [List.all_eq_true, decide_eq_true_eq, eq_iff_iff, iff_true] at h
  exact h

theorem four10 : FourNumbers v10.s v10 :=
  ⟨"0".toList, "0".toList, "1".toList, "10".toList, digits_dec (by decide +kernel), digits_dec (by decide +kernel), digits_dec (by decide +kernel),
    digits_dec (by decide +kernel), by decide +kernel, by decide +kernel⟩

theorem named : RadsNamed word (.solutionVersion "lol_game_client_sln".toList v10) where
  name_ne := by decide +kernel
  name_word := by decide +kernel
  version := by rintro v ⟨⟩; exact four10

/-- `C68_roundtrip` -/
example : parseRadsComponent word st (radsText (.solutionVersion "lol_game_client_sln".toList v10)) = .ok (.obj (.solutionVersion "lol_game_client_sln".toList v10)) :=
  C68_roundtrip word_ok st _ named

/-- `C68_lt`, `C68_order`: newest first; versions with different texts for the same numbers are not equal, and not ordered -/
example : (RadsObj.projectVersion "a".toList v10).lt (.projectVersion "a".toList v7) = .ok true := by decide +kernel
example : (RadsObj.projectVersion "a".toList v10).lt (.solutionVersion "a".toList v7) = .error .type := by decide +kernel
theorem canonical : RadsCanonical (.projectVersion "a".toList v10) := by
  rintro v ⟨⟩
  exact ⟨[0, 0, 1, 10], by simp, rfl, by decide +kernel⟩
def v010 : Version := ⟨"00.0.1.10".toList, .nums [0, 0, 1, 10]⟩
example : radsVersion (.str "00.0.1.10".toList) = .ok v010 ∧ (RadsObj.project "a".toList).eq (.project "a".toList) = true ∧
    (RadsObj.projectVersion "a".toList v10).eq (.projectVersion "a".toList v010) = false ∧
    (RadsObj.projectVersion "a".toList v10).lt (.projectVersion "a".toList v010) = .ok false ∧
    (RadsObj.projectVersion "a".toList v010).lt (.projectVersion "a".toList v10) = .ok false := by decide +kernel

/-- `C68_patches`, `C68_patch_str` -/
def p1 : Patch := ⟨⟨"13.1".toList, .nums [13, 1]⟩, []⟩
def p2 : Patch := ⟨⟨"13.2".toList, .nums [13, 2]⟩, []⟩
example : p2.lt p1 = .ok true ∧ p1.eq { p1 with elements := [⟨"game".toList, p1.version, 0⟩] } = true ∧ p1.lt ⟨⟨"main".toList, .main⟩, []⟩ = .error .type ∧
    p1.str = "patch=13.1".toList := by decide +kernel
example : parseRadsComponent word { st with patch := fun _ => .ok (some p1) } p1.str = .ok (.patch (some p1)) :=
  C68_patch_str word_ok (by decide +kernel) _ p1 (Or.inr ⟨["13".toList, "1".toList], by simp,
    by intro d hd; simp only [List.mem_cons, List.not_mem_nil, or_false] at hd; rcases hd with rfl | rfl <;> exact digits_dec (by decide +kernel),
    by decide +kernel⟩) _ rfl

/-- `C68_str` -/
example : (RadsObj.projectVersion "a".toList v10).str = "rads:a=0.0.1.10".toList := by decide +kernel

/-- `C68_download` -/
example : let r := radsCfg.downloadAllVersions (fun _ => radsWorld) "league_client_sln".toList (.one "fr_fr".toList) (.ok "0.0.1.7\n".toList) radsDisk
    r.2 = .ok () ∧ Spec.HasVersion radsCfg radsSite r.1 "league_client_sln".toList "0.0.1.7".toList (.one "fr_fr".toList) := by
  have hr : (radsCfg.downloadAllVersions (fun _ => radsWorld) "league_client_sln".toList (.one "fr_fr".toList) (.ok "0.0.1.7\n".toList) radsDisk).2 = .ok () := by
    decide +kernel
  have hl : "0.0.1.7".toList ∈ splitlines "0.0.1.7\n".toList := by decide +kernel
  obtain ⟨-, -, h, -⟩ := C68_download radsOn (fun _ => radsWorld) (fun _ => radsWorldOk) "league_client_sln".toList (by decide +kernel) (.one "fr_fr".toList)
    "0.0.1.7\n".toList (by decide +kernel) radsDisk radsDisk_good _ _ Prod.mk.eta.symm
  exact ⟨hr, h hr _ hl⟩
/-- a version which is not on the server: what was downloaded before it is kept -/
example : let r := radsCfg.downloadAllVersions (fun _ => radsWorld) "league_client_sln".toList (.one "fr_fr".toList) (.ok "0.0.1.6\n0.0.1.7\n".toList) radsDisk
    r.2 = .error (.http 404) ∧ r.1 "/rads/projects/league_client_fr/releases/0.0.1.2/files/fr.wad".toList = some (.file [4, 5]) := by decide +kernel

end C68ex

end Cdtb
