import Verif.Lemmas.ArgsSpell
/-!
# C81: spellings of options
-/
namespace Cdtb
set_option autoImplicit false
open Py Spec

/-- The words of a command line with a command -/
private theorem main_congr (dir : Option Str) {c : Str} {p : ParserDef} (hc : (c, p) ∈ commandParsers dir) (n : Nat) (r r' : List Str)
    (hr : ∀ w ∈ r, ¬ "--=".toList <+: w) (hr' : ∀ w ∈ r', ¬ "--=".toList <+: w) (h : p.parse r = p.parse r') :
    parseMain dir (List.replicate n "-v".toList ++ c :: r) = parseMain dir (List.replicate n "-v".toList ++ c :: r') := by
  obtain ⟨t, h1, -⟩ := tokens_main r hr
  obtain ⟨t', h1', -⟩ := tokens_main r' hr'
  rw [parseMain_command dir hc n r ⟨t, h1⟩, parseMain_command dir hc n r' ⟨t', h1'⟩, h]

private theorem name_not_sep {opts : List OptDef} (h : OptNamesOk opts) {o : OptDef} (ho : o ∈ opts) {n : Str} (hn : n ∈ o.names) (s : Str) :
    n ++ s ≠ "--".toList ∧ ¬ "--=".toList <+: n ++ s := by
  rcases h.form o ho n hn with ⟨x, rfl, h1, h2⟩ | ⟨⟨r, rfl⟩, h1, h2⟩
  · refine ⟨by simp [h1], ?_⟩
    rintro ⟨t, ht⟩
    simp at ht
    exact h1 ht.1.symm
  · match r with
    | [] => exact absurd rfl h2
    | d :: r =>
      refine ⟨by simp, ?_⟩
      rintro ⟨t, ht⟩
      simp at ht h1
      exact h1.1 ht.1

private theorem plain_not_eq {v : Str} (h : PlainWord v) : ¬ "--=".toList <+: v := by
  rintro ⟨t, rfl⟩
  exact h rfl

private theorem mem_words {a b : List Str} (hr : ∀ w ∈ a ++ b, ¬ "--=".toList <+: w) (l : List Str) (hl : ∀ w ∈ l, ¬ "--=".toList <+: w) :
    ∀ w ∈ a ++ (l ++ b), ¬ "--=".toList <+: w := by
  intro w hw
  simp only [List.mem_append] at hw
  rcases hw with h | h | h
  · exact hr w (by simp [h])
  · exact hl w h
  · exact hr w (by simp [h])

private theorem tokens_one {opts : List OptDef} {w : Str} (hw : w ≠ "--".toList) {t : Tok} (h : classify opts w = .ok t) (b : List Str) :
    tokens opts ([w] ++ b) = (tokens opts b).map ([t] ++ ·) := by
  rw [List.singleton_append, tokens, if_neg hw, h]
  cases tokens opts b <;> rfl

private theorem tokens_two {opts : List OptDef} {w w' : Str} (hw : w ≠ "--".toList) (hw' : w' ≠ "--".toList) {t t' : Tok} (h : classify opts w = .ok t)
    (h' : classify opts w' = .ok t') (b : List Str) : tokens opts ([w, w'] ++ b) = (tokens opts b).map ([t, t'] ++ ·) := by
  rw [show [w, w'] ++ b = [w] ++ ([w'] ++ b) from rfl, tokens_one hw h, tokens_one hw' h']
  cases tokens opts b <;> rfl

private theorem attached {p : ParserDef} (h : OptNamesOk p.opts) (ho' : OptsOk p.opts) {o : OptDef} (ho : o ∈ p.opts)
    (hk : (∃ ch, o.kind = .one ch) ∨ o.kind = .append) {n : Str} (hn : n ∈ o.names) {v : Str} (hv : PlainWord v) (w : Str) (hw : w ≠ "--".toList) (e : Bool)
    (hcl : classify p.opts w = .ok (.opt o n e (some v))) (a b : List Str) (ha : "--".toList ∉ a) :
    p.parse (a ++ ([w] ++ b)) = p.parse (a ++ ([n, v] ++ b)) := by
  have hns := (name_not_sep h ho hn []).1
  rw [List.append_nil] at hns
  refine parse_swap a b [w] [n, v] ha _ _ (tokens_one hw hcl b) (tokens_two hns (plain_ne_sep hv) (classify_name ho' ho hn) (classify_plain hv) b) ?_
  intro st ts
  simp only [List.cons_append, List.nil_append, List.foldlM_cons]
  rw [step_attached p.opts o hk n n e v st]
  congr 1
  simp only [bind]
  cases parseStep p.opts st (.opt o n false none) <;> rfl

/-- **C81, `=`.** The argument of an option can be in the same word, after `=`. -/
theorem C81_equals (dir : Option Str) {c : Str} {p : ParserDef} (hc : (c, p) ∈ commandParsers dir) (n : Nat) (a b : List Str)
    (ha : "--".toList ∉ a) (hr : ∀ w ∈ a ++ b, ¬ "--=".toList <+: w) (o : OptDef) (ho : o ∈ p.opts) (hk : (∃ ch, o.kind = .one ch) ∨ o.kind = .append)
    (name : Str) (hn : name ∈ o.names) (v : Str) (hv : PlainWord v) :
    parseMain dir (List.replicate n "-v".toList ++ c :: (a ++ (name ++ '=' :: v) :: b)) =
      parseMain dir (List.replicate n "-v".toList ++ c :: (a ++ name :: v :: b)) := by
  have h := commandParsers_names dir _ hc
  have hns := name_not_sep h ho hn ('=' :: v)
  have hnn := name_not_sep h ho hn []
  rw [List.append_nil] at hnn
  refine main_congr dir hc n _ _ (mem_words hr [name ++ '=' :: v] (by simpa using hns.2)) (mem_words hr [name, v] ?_)
    (attached h (commandParsers_ok dir _ hc).1.opts ho hk hn hv _ hns.1 true (classify_long h ho hn v) a b ha)
  intro w hw
  simp only [List.mem_cons, List.not_mem_nil, or_false] at hw
  rcases hw with rfl | rfl
  · exact hnn.2
  · exact plain_not_eq hv

/-- **C81, letters.** The argument of a one-letter option can be in the same word, just after the letter. -/
theorem C81_letter_value (dir : Option Str) {c : Str} {p : ParserDef} (hc : (c, p) ∈ commandParsers dir) (n : Nat) (a b : List Str)
    (ha : "--".toList ∉ a) (hr : ∀ w ∈ a ++ b, ¬ "--=".toList <+: w) (o : OptDef) (ho : o ∈ p.opts) (hk : (∃ ch, o.kind = .one ch) ∨ o.kind = .append)
    (x : Char) (hn : ['-', x] ∈ o.names) (v : Str) (hv : PlainWord v) (hne : v ≠ []) (he : v.head? ≠ some '=') :
    parseMain dir (List.replicate n "-v".toList ++ c :: (a ++ ('-' :: x :: v) :: b)) =
      parseMain dir (List.replicate n "-v".toList ++ c :: (a ++ ['-', x] :: v :: b)) := by
  have h := commandParsers_names dir _ hc
  have hns := name_not_sep h ho hn v
  have hnn := name_not_sep h ho hn []
  rw [List.append_nil] at hnn
  have hcl : classify p.opts ('-' :: x :: v) = .ok (.opt o ['-', x] false (some v)) := by
    match v, hne with
    | d :: v, _ => exact classify_letter h ho hn d v (by simpa using he)
  refine main_congr dir hc n _ _ (mem_words hr ['-' :: x :: v] (by simpa using hns.2)) (mem_words hr [['-', x], v] ?_)
    (attached h (commandParsers_ok dir _ hc).1.opts ho hk hn hv _ hns.1 false hcl a b ha)
  intro w hw
  simp only [List.mem_cons, List.not_mem_nil, or_false] at hw
  rcases hw with rfl | rfl
  · exact hnn.2
  · exact plain_not_eq hv

/-- **C81, abbreviations.** The beginning of exactly one name is the same as this name, with an argument after `=` or not. -/
theorem C81_abbreviation (dir : Option Str) {c : Str} {p : ParserDef} (hc : (c, p) ∈ commandParsers dir) (n : Nat) (a b : List Str)
    (ha : "--".toList ∉ a) (hr : ∀ w ∈ a ++ b, ¬ "--=".toList <+: w) (o : OptDef) (ho : o ∈ p.opts) (name : Str) (hn : name ∈ o.names)
    (u : Str) (hu : "--".toList <+: u) (hu' : u ≠ "--".toList) (hp : u <+: name) (honly : ∀ o' ∈ p.opts, ∀ name' ∈ o'.names, u <+: name' → name' = name)
    (tail : Str) (ht : tail = [] ∨ ∃ v, tail = '=' :: v) :
    parseMain dir (List.replicate n "-v".toList ++ c :: (a ++ (u ++ tail) :: b)) =
      parseMain dir (List.replicate n "-v".toList ++ c :: (a ++ (name ++ tail) :: b)) := by
  by_cases hun : u = name
  · rw [hun]
  have h := commandParsers_names dir _ hc
  have hns := name_not_sep h ho hn tail
  have he : '=' ∉ u := by
    rcases h.form o ho name hn with ⟨x, rfl, h1, h2⟩ | ⟨-, h1, -⟩
    · have := hu.trans hp
      obtain ⟨r, hr⟩ := this
      simp at hr
      exact absurd hr.1.symm h1
    · exact fun hm => h1 (hp.subset hm)
  have hno : ∀ o' ∈ p.opts, u ∉ o'.names := fun o' ho' hm => hun (honly o' ho' u hm (List.prefix_refl u))
  have huns : u ++ tail ≠ "--".toList ∧ ¬ "--=".toList <+: u ++ tail := by
    obtain ⟨r, rfl⟩ := hu
    match r with
    | [] => exact absurd rfl hu'
    | d :: r =>
      refine ⟨by simp, ?_⟩
      rintro ⟨t, ht⟩
      simp at ht he
      exact he.1 ht.1
  have hf : ∀ v : Option Str, ((optStrings p.opts).filter fun x => u.isPrefixOf x.1).map (fun x => Tok.opt x.2 x.1 v.isSome v) = [Tok.opt o name v.isSome v] := by
    intro v
    have : ((optStrings p.opts).filter fun x => u.isPrefixOf x.1).map (fun x => Tok.opt x.2 x.1 v.isSome v) =
        (optStrings p.opts).filterMap fun x => if u.isPrefixOf x.1 then some (Tok.opt x.2 x.1 v.isSome v) else none := by
      generalize optStrings p.opts = l
      induction l with
      | nil => rfl
      | cons x l ih =>
        simp only [List.filter_cons, List.filterMap_cons]
        cases u.isPrefixOf x.1
        · simpa using ih
        · simpa using ih
    rw [this]
    refine filterMap_single _ _ (by rw [optStrings_fst]; exact h.nodup) name o _ ((optStrings_iff _ _ _).2 ⟨ho, hn⟩)
      (by simp [List.isPrefixOf_iff_prefix.2 hp]) ?_
    rintro ⟨m, o'⟩ hm hne
    obtain ⟨ho', hn'⟩ := (optStrings_iff _ _ _).1 hm
    exact if_neg fun hpp => hne (honly o' ho' m hn' (List.isPrefixOf_iff_prefix.1 hpp))
  have hcl : ∃ t, classify p.opts (u ++ tail) = .ok t ∧ classify p.opts (name ++ tail) = .ok t := by
    rcases ht with rfl | ⟨v, rfl⟩
    · have := classify_abbrev h hu he hno none
      rw [hf none] at this
      refine ⟨_, by simpa using this, ?_⟩
      rw [List.append_nil]
      exact classify_name (commandParsers_ok dir _ hc).1.opts ho hn
    · have := classify_abbrev h hu he hno (some v)
      rw [hf (some v)] at this
      exact ⟨_, by simpa using this, classify_long h ho hn v⟩
  obtain ⟨t, h1, h2⟩ := hcl
  refine main_congr dir hc n _ _ (mem_words hr [u ++ tail] (by simpa using huns.2)) (mem_words hr [name ++ tail] (by simpa using hns.2)) ?_
  exact parse_swap a b [u ++ tail] [name ++ tail] ha _ _ (tokens_one huns.1 h1 b) (tokens_one hns.1 h2 b) (fun _ _ => rfl)

/-- **C81, ambiguous abbreviations.** The beginning of several names, which is not a name, is refused. -/
theorem C81_ambiguous (dir : Option Str) {c : Str} {p : ParserDef} (hc : (c, p) ∈ commandParsers dir) (n : Nat) (a b : List Str)
    (ha : "--".toList ∉ a) (hr : ∀ w ∈ a ++ b, ¬ "--=".toList <+: w) (u : Str) (hu : "--".toList <+: u) (hu' : u ≠ "--".toList)
    (hno : ∀ o ∈ p.opts, u ∉ o.names) (o o' : OptDef) (ho : o ∈ p.opts) (ho' : o' ∈ p.opts) (name name' : Str) (hn : name ∈ o.names) (hn' : name' ∈ o'.names)
    (hne : name ≠ name') (hp : u <+: name) (hp' : u <+: name') (tail : Str) (ht : tail = [] ∨ ∃ v, tail = '=' :: v) :
    parseMain dir (List.replicate n "-v".toList ++ c :: (a ++ (u ++ tail) :: b)) = .error .usage := by
  have h := commandParsers_names dir _ hc
  have he : '=' ∉ u := by
    rcases h.form o ho name hn with ⟨x, rfl, h1, h2⟩ | ⟨-, h1, -⟩
    · have := hu.trans hp
      obtain ⟨r, hr⟩ := this
      simp at hr
      exact absurd hr.1.symm h1
    · exact fun hm => h1 (hp.subset hm)
  have huns : u ++ tail ≠ "--".toList ∧ ¬ "--=".toList <+: u ++ tail := by
    obtain ⟨r, rfl⟩ := hu
    match r with
    | [] => exact absurd rfl hu'
    | d :: r =>
      refine ⟨by simp, ?_⟩
      rintro ⟨t, ht⟩
      simp at ht he
      exact he.1 ht.1
  have hcl : classify p.opts (u ++ tail) = .error .usage := by
    have hl : ∀ v : Option Str, ∃ x y l, ((optStrings p.opts).filter fun x => u.isPrefixOf x.1).map (fun x => Tok.opt x.2 x.1 v.isSome v) = x :: y :: l := by
      intro v
      have m1 : (name, o) ∈ (optStrings p.opts).filter fun x => u.isPrefixOf x.1 :=
        List.mem_filter.2 ⟨(optStrings_iff _ _ _).2 ⟨ho, hn⟩, List.isPrefixOf_iff_prefix.2 hp⟩
      have m2 : (name', o') ∈ (optStrings p.opts).filter fun x => u.isPrefixOf x.1 :=
        List.mem_filter.2 ⟨(optStrings_iff _ _ _).2 ⟨ho', hn'⟩, List.isPrefixOf_iff_prefix.2 hp'⟩
      generalize (optStrings p.opts).filter (fun x => u.isPrefixOf x.1) = l at m1 m2
      match l, m1, m2 with
      | [x], m1, m2 =>
        rw [List.mem_singleton] at m1 m2
        exact absurd (by rw [← m1] at m2; exact (congrArg Prod.fst m2).symm) hne
      | x :: y :: l, _, _ => exact ⟨_, _, _, rfl⟩
    rcases ht with rfl | ⟨v, rfl⟩
    · have := classify_abbrev h hu he hno none
      obtain ⟨x, y, l, hl⟩ := hl none
      rw [hl] at this
      simpa using this
    · have := classify_abbrev h hu he hno (some v)
      obtain ⟨x, y, l, hl⟩ := hl (some v)
      rw [hl] at this
      simpa using this
  obtain ⟨ts, h1, -⟩ := tokens_main (a ++ ([u ++ tail] ++ b)) (mem_words hr [u ++ tail] (by simpa using huns.2))
  have hpm := parseMain_command dir hc n (a ++ ([u ++ tail] ++ b)) ⟨ts, h1⟩
  have herr : ∀ e, tokens p.opts a = .error e → e = .usage := by
    clear ha hr h1 hpm
    induction a with
    | nil => intro e h; cases h
    | cons x a ih =>
      intro e h
      unfold tokens at h
      split at h
      · cases h
      · cases hx : classify p.opts x with
        | error e' =>
          rw [hx] at h
          cases h
          unfold classify at hx
          split at hx
          · cases hx
          · split at hx
            · cases hx
            · split at hx
              · cases hx
              · split at hx
                · cases hx
                · split at hx
                  · cases hx
                  · cases hx; rfl
                  · split at hx <;> cases hx
        | ok t =>
          cases ha : tokens p.opts a with
          | error e' => rw [hx, ha] at h; cases h; exact ih e ha
          | ok ts => rw [hx, ha] at h; cases h
  have : p.parse (a ++ ([u ++ tail] ++ b)) = .error .usage := by
    unfold ParserDef.parse
    rw [tokens_before a _ ha, List.singleton_append, tokens, if_neg huns.1, hcl]
    cases hta : tokens p.opts a with
    | error e => rw [herr e hta]; rfl
    | ok ta => rfl
  rw [this] at hpm
  exact hpm

/-- **C81, letters together.** Letters of options without argument can be put before another letter, in the same word. -/
theorem C81_letters (dir : Option Str) {c : Str} {p : ParserDef} (hc : (c, p) ∈ commandParsers dir) (n : Nat) (a b : List Str)
    (ha : "--".toList ∉ a) (hr : ∀ w ∈ a ++ b, ¬ "--=".toList <+: w) (o o' : OptDef) (ho : o ∈ p.opts) (ho' : o' ∈ p.opts) (x y : Char)
    (hk : ∃ v, o.kind = .flag v) (hn : ['-', x] ∈ o.names) (hn' : ['-', y] ∈ o'.names) (s : Str) :
    parseMain dir (List.replicate n "-v".toList ++ c :: (a ++ ('-' :: x :: y :: s) :: b)) =
      parseMain dir (List.replicate n "-v".toList ++ c :: (a ++ ['-', x] :: ('-' :: y :: s) :: b)) := by
  have h := commandParsers_names dir _ hc
  have hoo := (commandParsers_ok dir _ hc).1.opts
  have n1 := name_not_sep h ho hn (y :: s)
  have n2 := name_not_sep h ho hn []
  rw [List.append_nil] at n2
  have n3 := name_not_sep h ho' hn' s
  obtain ⟨val, hk⟩ := hk
  have hy : y ≠ '-' ∧ y ≠ '=' := by
    rcases h.form o' ho' _ hn' with ⟨z, hz, h1⟩ | ⟨⟨r, hr⟩, h1⟩
    · simp only [List.cons.injEq, and_true, true_and] at hz; exact hz ▸ h1
    · exfalso
      simp at hr
      exact h1.2 (by simp [← hr.1])
  have hx : x ≠ '-' := by
    rcases h.form o ho _ hn with ⟨z, hz, h1⟩ | ⟨⟨r, hr⟩, h1⟩
    · simp only [List.cons.injEq, and_true, true_and] at hz; exact hz ▸ h1.1
    · exfalso
      simp at hr
      exact h1.2 (by simp [← hr.1])
  have hpre : "--".toList.isPrefixOf ['-', x] = false := by simp [List.isPrefixOf, Ne.symm hx]
  have hpre' : "--".toList.isPrefixOf ['-', y] = false := by simp [List.isPrefixOf, Ne.symm hy.1]
  have hfy := (findOpt_iff h _ _).2 ⟨ho', hn'⟩
  -- the two words
  have hcl := classify_letter h ho hn y s hy.2
  have hcl' : ∃ e w, classify p.opts ('-' :: y :: s) = .ok (.opt o' ['-', y] e w) ∧
      cluster p.opts o (y :: s) = (expandOpt p.opts o' ['-', y] e w).map fun r => (o :: r.1, r.2) := by
    match s with
    | [] =>
      refine ⟨false, none, classify_name hoo ho' hn', ?_⟩
      simp [cluster, hy.1, hfy, expandOpt, Except.map]
    | d :: s =>
      by_cases hd : d = '='
      · subst hd
        refine ⟨true, some s, classify_long h ho' hn' s, ?_⟩
        by_cases hna : o'.kind.noArg = true
        · simp [cluster, hy.1, hfy, expandOpt, Except.map, hna]
        · simp [cluster, hy.1, hfy, expandOpt, Except.map, hna]
      · refine ⟨false, some (d :: s), classify_letter h ho' hn' d s hd, ?_⟩
        by_cases hna : o'.kind.noArg = true
        · rw [cluster.eq_def]
          simp only [hy.1, if_false, hfy, List.isEmpty_cons, Bool.false_eq_true, List.head?_cons, Option.some.injEq, hd, hna, if_true, expandOpt, Bool.not_true, hpre',
            Bool.or_self]
          cases cluster p.opts o' (d :: s) <;> rfl
        · rw [cluster.eq_def]
          simp [hy.1, hfy, expandOpt, Except.map, hna, hd]
  obtain ⟨e, w, hcl', hclu⟩ := hcl'
  refine main_congr dir hc n _ _ (mem_words hr ['-' :: x :: y :: s] (by simpa using n1.2)) (mem_words hr [['-', x], '-' :: y :: s] ?_) ?_
  · intro w hw
    simp only [List.mem_cons, List.not_mem_nil, or_false] at hw
    rcases hw with rfl | rfl
    · exact n2.2
    · exact n3.2
  refine parse_swap a b ['-' :: x :: y :: s] [['-', x], '-' :: y :: s] ha _ _ (tokens_one n1.1 hcl b) (tokens_two n2.1 n3.1 (classify_name hoo ho hn) hcl' b) ?_
  intro st ts
  simp only [List.cons_append, List.nil_append, List.foldlM_cons, parseStep]
  cases hcm : closeMode st with
  | error e => rfl
  | ok st0 =>
    have h0 := closeMode_idle hcm
    obtain ⟨ns, pos, ex, mode⟩ := st0
    simp only at h0
    subst h0
    have hna : o.kind.noArg = true := by rw [hk]; rfl
    have e1 : expandOpt p.opts o ['-', x] false (some (y :: s)) = cluster p.opts o (y :: s) := by
      simp only [expandOpt, hna, hpre, Bool.not_true, Bool.false_eq_true, if_false, Bool.or_self]
    have e2 : consumeOpt p.opts ⟨ns, pos, ex, .idle⟩ o ['-', x] false none = .ok ⟨ns.set o.dest val, pos, ex, .idle⟩ := by
      have hna2 : (OptKind.flag val).noArg = true := rfl
      simp only [consumeOpt, expandOpt, bind, Except.bind, applyFlag, hk, pure, Except.pure, List.foldlM_nil, hna2, if_true]
    have e3 : applyFlag ns o = .ok (ns.set o.dest val) := by simp [applyFlag, hk]
    have e4 : closeMode ⟨ns.set o.dest val, pos, ex, .idle⟩ = .ok ⟨ns.set o.dest val, pos, ex, .idle⟩ := rfl
    simp only [bind, Except.bind, e2, e4]
    rw [consumeOpt, consumeOpt, e1, hclu]
    cases expandOpt p.opts o' ['-', y] e w with
    | error e => rfl
    | ok r =>
      obtain ⟨l, last⟩ := r
      match last with
      | .extra z => simp only [Except.map, bind, Except.bind, List.foldlM_cons, e3]
      | .opt q (some z) => simp only [Except.map, bind, Except.bind, List.foldlM_cons, e3]
      | .opt q none =>
        simp only [Except.map, bind, Except.bind, List.foldlM_cons, e3]
        by_cases q1 : q.kind.noArg = true
        · simp only [q1, if_true]
        · by_cases q2 : q.kind = .many
          · simp only [if_neg q1, if_pos q2]
          · simp only [if_neg q1, if_neg q2]
            match ts with
            | [] => rfl
            | .arg z :: ts => simp only [List.foldlM_cons, parseStep, consumeArg, bind, Except.bind, e3]
            | .opt .. :: ts => rfl
            | .unknown _ :: ts => rfl
            | .sep :: ts => rfl

/-! ## Examples -/

/-- The hypotheses are met by `-p*.bin`, `--pat=*.txt`, `--f` (ambiguous) and `-jV14.2` -/
theorem C81_spellings_met :
    (∃ p, ("wad-extract".toList, p) ∈ commandParsers none ∧ ∃ o ∈ p.opts, o.kind = .append ∧ ['-', 'p'] ∈ o.names ∧ "--pattern".toList ∈ o.names ∧
      ∀ o' ∈ p.opts, ∀ name' ∈ o'.names, "--pat".toList <+: name' → name' = "--pattern".toList) ∧
    (∃ p, ("export".toList, p) ∈ commandParsers none ∧ (∀ o ∈ p.opts, "--f".toList ∉ o.names) ∧ ∃ o ∈ p.opts, ∃ o' ∈ p.opts,
      "--full".toList ∈ o.names ∧ "--from".toList ∈ o'.names) ∧
    ∃ p, ("bin-dump".toList, p) ∈ commandParsers none ∧ ∃ o ∈ p.opts, ∃ o' ∈ p.opts, (∃ v, o.kind = .flag v) ∧ ['-', 'j'] ∈ o.names ∧ ['-', 'V'] ∈ o'.names := by
  refine ⟨⟨_, by unfold commandParsers; exact List.mem_of_getElem? (i := 4) rfl, ⟨["-p".toList, "--pattern".toList], "pattern".toList, .append, .none⟩, ?_⟩,
    ⟨_, by unfold commandParsers; exact List.mem_of_getElem? (i := 7) rfl, by decide +kernel,
      ⟨["--full".toList], "previous".toList, .flag (.str "none".toList), .none⟩, by decide +kernel, optOne ["--from"] "first", by decide +kernel,
      by decide +kernel, by decide +kernel⟩,
    ⟨_, by unfold commandParsers; exact List.mem_of_getElem? (i := 8) rfl, optTrue ["-j", "--json"] "json", by decide +kernel,
      optOne ["-V", "--patch-version"] "patch_version", by decide +kernel, ⟨_, rfl⟩, by decide +kernel, by decide +kernel⟩⟩
  decide +kernel

example : parseMain none (["bin-dump", "-jV14.2", "a.bin"].map String.toList) = parseMain none (["bin-dump", "--js", "--patch=14.2", "a.bin"].map String.toList) ∧
    parseMain none (["bin-dump", "-jV14.2", "a.bin"].map String.toList) =
      .ok ⟨0, some ("bin-dump".toList, [("json".toList, .bool true), ("patch_version".toList, .str "14.2".toList), ("bin".toList, .str "a.bin".toList)])⟩ := by
  decide +kernel

end Cdtb
