import Verif.Lemmas.ArgsMain
/-!
# C81: what command lines do
-/
namespace Cdtb
set_option autoImplicit false
open Py Spec

theorem default_of {p : ParserDef} (hp : ParserOk p) {o : OptDef} (ho : o ∈ p.opts) (hk : o.kind ≠ .help) :
    ∃ d, p.defaults.get? o.dest = some d ∧ DefaultOf p.opts o.dest d := by
  rw [defaults_get p hp]
  cases hf : p.opts.find? fun x => decide (x.kind ≠ .help ∧ x.dest = o.dest) with
  | none =>
    rw [List.find?_eq_none] at hf
    exact absurd (hf o ho) (by simp [hk])
  | some x =>
    obtain ⟨h1, a, b, h2, h3⟩ := List.find?_eq_some_iff_append.1 hf
    simp only [decide_eq_true_eq] at h1
    refine ⟨x.default, by simp, a, x, b, h2, h1.2, h1.1, rfl, fun y hy => ?_⟩
    have := h3 y hy
    simp only [ne_eq, Bool.not_eq_true', decide_eq_false_iff_not, not_and] at this
    by_cases hh : y.kind = .help
    · exact Or.inl hh
    · exact Or.inr (this hh)

theorem plain_not_sep {w : Str} (h : PlainWord w) : ¬ "--=".toList <+: w := by
  rintro ⟨t, rfl⟩
  exact h rfl

theorem optWords_not_sep {dir : Option Str} {c : Str} {p : ParserDef} (hc : (c, p) ∈ commandParsers dir) (gs : List GivenOpt)
    (hg : ∀ g ∈ gs, g.Fits p.opts) : ∀ w ∈ optWords gs, ¬ "--=".toList <+: w := by
  intro w hw
  obtain ⟨g, hgm, hw⟩ := List.mem_flatMap.1 hw
  rcases List.mem_cons.1 hw with rfl | hw
  · exact (commandParsers_ok dir _ hc).2 _ (hg g hgm).1 _ (hg g hgm).2.1
  · exact plain_not_sep ((hg g hgm).2.2.1 w hw)

theorem tells_all {p : ParserDef} (hp : ParserOk p) (gs : List GivenOpt) (hg : ∀ g ∈ gs, g.Fits p.opts) (ns : Dict Str ArgVal)
    (hn : ∀ k, (∀ q ∈ p.pos, q.dest ≠ k) → ns.get? k = (gs.foldl GivenOpt.effect p.defaults).get? k) :
    ∀ o ∈ p.opts, o.kind ≠ .help → ∃ d v, DefaultOf p.opts o.dest d ∧ ns.get? o.dest = some v ∧ Tells gs o.dest d v := by
  intro o ho hk
  obtain ⟨d, hd, hd'⟩ := default_of hp ho hk
  obtain ⟨v, hv, ht⟩ := effects_tell p.opts hp.uniform gs hg p.defaults o.dest d hd (by
    intro o' ho' hd2 ha
    obtain ⟨a, x, b, he, hx, -, rfl, -⟩ := hd'
    have hxm : x ∈ p.opts := by rw [he]; simp
    have hxa := (hp.uniform o' ho' x hxm (hd2.trans hx.symm) ha).1
    exact (hp.uniform x hxm o' ho' (hx.trans hd2.symm) hxa).2)
  exact ⟨d, v, hd', by rw [hn _ (fun q hq => Ne.symm (hp.pos q hq o ho)), hv], ht⟩

/-! ## Statements -/

/-- A command line made of a command, of options with their exact names and arguments, and of the positional arguments in one place, not just
after an option that takes any number of arguments: it is accepted, the options of each attribute give its value whatever the order of other
options, and the positional argument has the words given for it. -/
theorem C81_plain (dir : Option Str) {c : Str} {p : ParserDef} (hc : (c, p) ∈ commandParsers dir) (n : Nat) (before after : List GivenOpt)
    (ws : List Str) (hg : ∀ g ∈ before ++ after, g.Fits p.opts) (hw : ∀ w ∈ ws, PlainWord w) (ho : ws ≠ [] → ¬ EndsOpen before)
    (hv : match p.pos with
      | none => ws = []
      | some q => ∃ v, PosTells q.kind ws v) :
    ∃ ns, parseMain dir (List.replicate n "-v".toList ++ c :: (optWords before ++ ws ++ optWords after)) = .ok ⟨n, some (c, ns)⟩ ∧
      (∀ o ∈ p.opts, o.kind ≠ .help → ∃ d v, DefaultOf p.opts o.dest d ∧ ns.get? o.dest = some v ∧ Tells (before ++ after) o.dest d v) ∧
      ∀ q ∈ p.pos, ∃ v, ns.get? q.dest = some v ∧ PosTells q.kind ws v := by
  have hp := (commandParsers_ok dir _ hc).1
  have hb : ∀ g ∈ before, g.Fits p.opts := fun g h => hg g (by simp [h])
  have ha : ∀ g ∈ after, g.Fits p.opts := fun g h => hg g (by simp [h])
  have : ∃ v, match p.pos with
      | none => ws = []
      | some q => PosTells q.kind ws v := by
    cases hq : p.pos with
    | none => rw [hq] at hv; exact ⟨.none, hv⟩
    | some q => rw [hq] at hv; exact hv
  obtain ⟨v, hv⟩ := this
  obtain ⟨ns, h1, h2, h3⟩ := parse_plain hp before after hb ha ws hw ho v hv
  have hr : ∀ w ∈ optWords before ++ ws ++ optWords after, ¬ "--=".toList <+: w := by
    intro w h
    rcases List.mem_append.1 h with h | h
    · rcases List.mem_append.1 h with h | h
      · exact optWords_not_sep hc before hb w h
      · exact plain_not_sep (hw w h)
    · exact optWords_not_sep hc after ha w h
  obtain ⟨ts, hts, -⟩ := tokens_main _ hr
  refine ⟨ns, ?_, tells_all hp _ hg ns h2, fun q hq => ⟨v, h3 q hq, ?_⟩⟩
  · rw [parseMain_command dir hc n _ ⟨ts, hts⟩, h1]
    rfl
  · rw [show p.pos = some q from hq] at hv
    exact hv

/-- After `--`, words are positional arguments, whatever they are: this works after an option that takes any number of arguments too. -/
theorem C81_separator (dir : Option Str) {c : Str} {p : ParserDef} (hc : (c, p) ∈ commandParsers dir) (n : Nat) (gs : List GivenOpt)
    (hg : ∀ g ∈ gs, g.Fits p.opts) (q : PosDef) (hq : p.pos = some q) (ws : List Str) (v : ArgVal) (hv : PosTells q.kind ws v) :
    ∃ ns, parseMain dir (List.replicate n "-v".toList ++ c :: (optWords gs ++ "--".toList :: ws)) = .ok ⟨n, some (c, ns)⟩ ∧
      (∀ o ∈ p.opts, o.kind ≠ .help → ∃ d v, DefaultOf p.opts o.dest d ∧ ns.get? o.dest = some v ∧ Tells gs o.dest d v) ∧
      ns.get? q.dest = some v := by
  have hp := (commandParsers_ok dir _ hc).1
  obtain ⟨ns, h1, h2, h3⟩ := parse_sep hp hq gs hg ws v hv
  refine ⟨ns, ?_, tells_all hp _ hg ns (fun k h => h2 k (h q hq)), h3⟩
  rw [parseMain_command dir hc n _ (tokens_main_sep _ _ (optWords_not_sep hc gs hg)), h1]
  rfl

/-- When the positional argument is required, a command line with options only is refused. -/
theorem C81_missing (dir : Option Str) {c : Str} {p : ParserDef} (hc : (c, p) ∈ commandParsers dir) (n : Nat) (gs : List GivenOpt)
    (hg : ∀ g ∈ gs, g.Fits p.opts) (q : PosDef) (hq : p.pos = some q) (hk : ¬ PosTells q.kind [] .none ∧ ¬ PosTells q.kind [] (.list [])) :
    parseMain dir (List.replicate n "-v".toList ++ c :: optWords gs) = .error .usage := by
  have hp := (commandParsers_ok dir _ hc).1
  obtain ⟨ts, hts, -⟩ := tokens_main _ (optWords_not_sep hc gs hg)
  rw [parseMain_command dir hc n _ ⟨ts, hts⟩, parse_missing hp hq ?_ gs hg]
  · rfl
  · cases hqk : q.kind with
    | one ch => exact Or.inl ⟨ch, rfl⟩
    | plus => exact Or.inr rfl
    | opt => rw [hqk] at hk; exact absurd (Or.inl ⟨rfl, rfl⟩) hk.1
    | star => rw [hqk] at hk; exact absurd rfl hk.2

/-- `--lang` takes all the words after it: languages cannot be followed by components, in `download` and `files`. -/
theorem C81_lang (dir : Option Str) (n : Nat) {c : Str} {p : ParserDef} (hc : (c, p) ∈ commandParsers dir)
    (hcc : c = "download".toList ∨ c = "files".toList) (before : List GivenOpt) (hb : ∀ g ∈ before, g.Fits p.opts) (langs components : List Str)
    (hl : ∀ w ∈ langs ++ components, PlainWord w) :
    parseMain dir (List.replicate n "-v".toList ++ c :: (optWords before ++ "--lang".toList :: langs ++ components)) = .error .usage := by
  have key : ∃ o ∈ p.opts, o.names = ["--lang".toList] ∧ o.kind = .many := by
    simp only [commandParsers, List.mem_cons, Prod.mk.injEq, List.not_mem_nil, or_false] at hc
    rcases hcc with rfl | rfl
    · rcases hc with ⟨-, rfl⟩ | ⟨h, -⟩ | ⟨h, -⟩ | ⟨h, -⟩ | ⟨h, -⟩ | ⟨h, -⟩ | ⟨h, -⟩ | ⟨h, -⟩ | ⟨h, -⟩ | ⟨h, -⟩
      · exact ⟨⟨["--lang".toList], "langs".toList, .many, .none⟩, by simp [componentOpts], rfl, rfl⟩
      all_goals exact absurd h (by decide +kernel)
    · rcases hc with ⟨h, -⟩ | ⟨-, rfl⟩ | ⟨h, -⟩ | ⟨h, -⟩ | ⟨h, -⟩ | ⟨h, -⟩ | ⟨h, -⟩ | ⟨h, -⟩ | ⟨h, -⟩ | ⟨h, -⟩
      · exact absurd h (by decide +kernel)
      · exact ⟨⟨["--lang".toList], "langs".toList, .many, .none⟩, by simp [componentOpts], rfl, rfl⟩
      all_goals exact absurd h (by decide +kernel)
  have hpos : ∃ q, p.pos = some q ∧ ((∃ ch, q.kind = .one ch) ∨ q.kind = .plus) := by
    simp only [commandParsers, List.mem_cons, Prod.mk.injEq, List.not_mem_nil, or_false] at hc
    rcases hcc with rfl | rfl
    · rcases hc with ⟨-, rfl⟩ | ⟨h, -⟩ | ⟨h, -⟩ | ⟨h, -⟩ | ⟨h, -⟩ | ⟨h, -⟩ | ⟨h, -⟩ | ⟨h, -⟩ | ⟨h, -⟩ | ⟨h, -⟩
      · exact ⟨_, rfl, Or.inr rfl⟩
      all_goals exact absurd h (by decide +kernel)
    · rcases hc with ⟨h, -⟩ | ⟨-, rfl⟩ | ⟨h, -⟩ | ⟨h, -⟩ | ⟨h, -⟩ | ⟨h, -⟩ | ⟨h, -⟩ | ⟨h, -⟩ | ⟨h, -⟩ | ⟨h, -⟩
      · exact absurd h (by decide +kernel)
      · exact ⟨_, rfl, Or.inl ⟨_, rfl⟩⟩
      all_goals exact absurd h (by decide +kernel)
  obtain ⟨o, ho, hn, hk⟩ := key
  obtain ⟨q, hq, hqk⟩ := hpos
  have hp := (commandParsers_ok dir _ hc).1
  have hfit : ∀ g ∈ before ++ [⟨o, "--lang".toList, langs ++ components⟩], g.Fits p.opts := by
    intro g hg
    rcases List.mem_append.1 hg with hg | hg
    · exact hb g hg
    · rw [List.mem_singleton.1 hg]
      refine ⟨ho, by simp [hn], hl, ?_⟩
      simp only [hk]
  have he : optWords (before ++ [⟨o, "--lang".toList, langs ++ components⟩]) = optWords before ++ "--lang".toList :: langs ++ components := by
    simp [optWords, GivenOpt.words]
  rw [← he]
  obtain ⟨ts, hts, -⟩ := tokens_main _ (optWords_not_sep hc _ hfit)
  rw [parseMain_command dir hc n _ ⟨ts, hts⟩, parse_missing hp hq hqk _ hfit]
  rfl

/-- Positional arguments in two places, with options between them, are refused. -/
theorem C81_scattered (dir : Option Str) {c : Str} {p : ParserDef} (hc : (c, p) ∈ commandParsers dir) (n : Nat) (q : PosDef) (hq : p.pos = some q)
    (before middle after : List GivenOpt) (hg : ∀ g ∈ before ++ middle ++ after, g.Fits p.opts) (ws ws' : List Str)
    (hw : ∀ w ∈ ws ++ ws', PlainWord w) (hn : ws ≠ []) (hn' : ws' ≠ []) (v : ArgVal) (hv : PosTells q.kind ws v)
    (ho : ¬ EndsOpen before) (ho' : ¬ EndsOpen middle) (hne : middle ≠ []) :
    parseMain dir (List.replicate n "-v".toList ++ c :: (optWords before ++ ws ++ optWords middle ++ ws' ++ optWords after)) = .error .usage := by
  have hp := (commandParsers_ok dir _ hc).1
  have hb : ∀ g ∈ before, g.Fits p.opts := fun g h => hg g (by simp [h])
  have hm : ∀ g ∈ middle, g.Fits p.opts := fun g h => hg g (by simp [h])
  have ha : ∀ g ∈ after, g.Fits p.opts := fun g h => hg g (by simp [h])
  have hr : ∀ w ∈ optWords before ++ ws ++ optWords middle ++ ws' ++ optWords after, ¬ "--=".toList <+: w := by
    intro w h
    simp only [List.mem_append, or_assoc] at h
    rcases h with h | h | h | h | h
    · exact optWords_not_sep hc before hb w h
    · exact plain_not_sep (hw w (by simp [h]))
    · exact optWords_not_sep hc middle hm w h
    · exact plain_not_sep (hw w (by simp [h]))
    · exact optWords_not_sep hc after ha w h
  obtain ⟨ts, hts, -⟩ := tokens_main _ hr
  rw [parseMain_command dir hc n _ ⟨ts, hts⟩, parse_scattered hp hq before middle after hb hm ha ws ws' (fun w h => hw w (by simp [h]))
    (fun w h => hw w (by simp [h])) hn hn' v hv ho ho' hne]
  rfl

/-- Whatever the command line: when it is accepted, the attributes are the declared ones; each one has its default or a value that one of its
options can give, made of texts of the command line; the positional argument has words of the command line, as many as it needs. -/
theorem C81_values (dir : Option Str) (argv : List Str) (n : Nat) (c : Str) (ns : Dict Str ArgVal)
    (h : parseMain dir argv = .ok ⟨n, some (c, ns)⟩) :
    ∃ p, (c, p) ∈ commandParsers dir ∧
      (∀ k, (∃ v, ns.get? k = some v) ↔ (∃ o ∈ p.opts, o.kind ≠ .help ∧ o.dest = k) ∨ ∃ q ∈ p.pos, q.dest = k) ∧
      (∀ o ∈ p.opts, o.kind ≠ .help → ∃ v, ns.get? o.dest = some v ∧
        (DefaultOf p.opts o.dest v ∨ ∃ o' ∈ p.opts, o'.dest = o.dest ∧ CanGive argv o' v)) ∧
      ∀ q ∈ p.pos, ∃ ws v, ns.get? q.dest = some v ∧ PosTells q.kind ws v ∧ ∀ w ∈ ws, w ∈ argv := by
  obtain ⟨p, hc, -, rest, hr, hns⟩ := parseMain_sound dir argv n c ns h
  have hp := (commandParsers_ok dir _ hc).1
  obtain ⟨h1, h2, -⟩ := parse_sound hp hns
  have hin : ∀ s, InWords rest s → InWords argv s := fun s ⟨w, hw, hs⟩ => ⟨w, hr.subset hw, hs⟩
  have hcan : ∀ o v, CanGive rest o v → CanGive argv o v := by
    intro o v hg
    unfold CanGive at hg ⊢
    split at hg
    · exact hg
    · obtain ⟨s, hs, hw⟩ := hg; exact ⟨s, hs, hin s hw⟩
    · obtain ⟨s, hm, hs, hw⟩ := hg; exact ⟨s, hm, hs, hin s hw⟩
    · obtain ⟨s, l, hs, hw⟩ := hg; exact ⟨s, l, hs, fun x hx => hin x (hw x hx)⟩
    · obtain ⟨l, hs, hw⟩ := hg; exact ⟨l, hs, fun x hx => hin x (hw x hx)⟩
    · exact hg
    · exact hg
  refine ⟨p, hc, fun k => ?_, fun o ho hk => ?_, fun q hq => ?_⟩
  · rw [← Option.ne_none_iff_exists', Ne, h1.1 k, defaults_get p hp]
    constructor
    · intro hne
      cases hf : p.opts.find? fun x => decide (x.kind ≠ .help ∧ x.dest = k) with
      | some x =>
        have hx := List.find?_some hf
        simp only [decide_eq_true_eq] at hx
        exact Or.inl ⟨x, List.mem_of_find?_eq_some hf, hx.1, hx.2⟩
      | none =>
        rw [hf] at hne
        cases hq : p.pos with
        | none => rw [hq] at hne; exact absurd rfl hne
        | some q =>
          rw [hq] at hne
          by_cases hd : q.dest = k
          · exact Or.inr ⟨q, rfl, hd⟩
          · exact absurd (by simp [hd]) hne
    · rintro (⟨o, ho, hk, rfl⟩ | ⟨q, hq, rfl⟩)
      · rw [← defaults_get p hp]
        exact declared_opt hp ho hk
      · rw [← defaults_get p hp]
        exact declared_pos hp hq
  · have hd := declared_opt hp ho hk
    obtain ⟨v, hv⟩ := Option.ne_none_iff_exists'.1 (fun h => hd ((h1.1 o.dest).1 h))
    refine ⟨v, hv, ?_⟩
    rcases h1.2 _ _ hv with hd | ⟨o', ho', hod, hg⟩ | ⟨q, hq, hqd, -⟩
    · obtain ⟨d, hd', hd''⟩ := default_of hp ho hk
      rw [hd] at hd'
      cases hd'
      exact Or.inl hd''
    · exact Or.inr ⟨o', ho', hod, hcan _ _ hg⟩
    · exact absurd hqd.symm (hp.pos q hq o ho)
  · obtain ⟨ws, v, hv, ht, hw⟩ := h2 q hq
    exact ⟨ws, v, hv, ht, fun w hw' => hr.subset (hw w hw')⟩

/-- Long options that are not declared are refused: those accepted are declared ones, or beginnings of declared ones. -/
theorem C81_unknown (dir : Option Str) {c : Str} {p : ParserDef} (hc : (c, p) ∈ commandParsers dir) (a : List Str) (w : Str) (b : List Str)
    (hs : "--".toList ∉ a) (hw : "--".toList <+: w) (hw' : w ≠ "--".toList) (hsp : ' ' ∉ w) (ns : Dict Str ArgVal)
    (h : p.parse (a ++ w :: b) = .ok ns) :
    ∃ o ∈ p.opts, ∃ name ∈ o.names, (w <+: name) ∨ ∃ u v, w = u ++ '=' :: v ∧ u <+: name := by
  have hp := (commandParsers_ok dir _ hc).1
  obtain ⟨-, -, ts, h1, h2⟩ := parse_sound hp h
  have : ∃ t ∈ ts, classify p.opts w = .ok t := by
    clear h h2
    induction a generalizing ts with
    | nil =>
      simp only [List.nil_append, tokens, if_neg hw'] at h1
      cases h3 : classify p.opts w with
      | error e => rw [h3] at h1; cases h1
      | ok t =>
        cases h4 : tokens p.opts b with
        | error e => rw [h3, h4] at h1; cases h1
        | ok ts' =>
          rw [h3, h4] at h1
          cases h1
          exact ⟨t, by simp, rfl⟩
    | cons x a ih =>
      have hx : x ≠ "--".toList := fun e => hs (by simp [e])
      simp only [List.cons_append, tokens, if_neg hx] at h1
      cases h3 : classify p.opts x with
      | error e => rw [h3] at h1; cases h1
      | ok t =>
        cases h4 : tokens p.opts (a ++ w :: b) with
        | error e => rw [h3, h4] at h1; cases h1
        | ok ts' =>
          rw [h3, h4] at h1
          cases h1
          obtain ⟨t', ht', he⟩ := ih (fun hm => hs (List.mem_cons_of_mem _ hm)) ts' h4
          exact ⟨t', by simp [ht'], he⟩
  obtain ⟨t, ht, hcl⟩ := this
  obtain ⟨r, rfl⟩ := hw
  have named : ∀ n o, findOpt p.opts n = some o → n ∈ o.names := by
    intro n o h
    have := List.find?_some h
    simpa using this
  unfold classify at hcl
  rw [if_neg (by simp)] at hcl
  split at hcl
  · rename_i o ho
    exact ⟨o, findOpt_mem ho, _, named _ _ ho, Or.inl (List.prefix_refl _)⟩
  split at hcl
  · rename_i hl
    simp at hl
  split at hcl
  · rename_i o u v hab
    rw [Option.bind_eq_some_iff] at hab
    obtain ⟨⟨a', b'⟩, h3, h4⟩ := hab
    simp only [Option.map_eq_some_iff] at h4
    obtain ⟨o', ho', he⟩ := h4
    cases he
    exact ⟨_, findOpt_mem ho', _, named _ _ ho', Or.inr ⟨_, _, split1_prefix h3, List.prefix_refl _⟩⟩
  have pre : ∀ t ∈ optTuples p.opts ("--".toList ++ r), ∃ o ∈ p.opts, ∃ name ∈ o.names,
      ("--".toList ++ r <+: name) ∨ ∃ u v, "--".toList ++ r = u ++ '=' :: v ∧ u <+: name := by
    intro t ht
    unfold optTuples at ht
    rw [if_pos (List.isPrefixOf_iff_prefix.2 (List.prefix_append _ _))] at ht
    obtain ⟨x, hx, -⟩ := List.mem_map.1 ht
    obtain ⟨hx1, hx2⟩ := List.mem_filter.1 hx
    have hx3 := optStrings_mem hx1
    refine ⟨x.2, hx3.1, x.1, hx3.2, ?_⟩
    have hx4 := List.isPrefixOf_iff_prefix.1 hx2
    unfold longParts at hx4
    split at hx4
    · rename_i u v huv
      exact Or.inr ⟨u, v, split1_prefix huv, hx4⟩
    · exact Or.inl hx4
  split at hcl
  · rename_i t' he
    exact pre t' (by rw [he]; simp)
  · cases hcl
  · split at hcl
    · rename_i hneg
      simp only [Bool.or_eq_true] at hneg
      rcases hneg with hneg | hneg
      · exfalso
        change looksNegative ('-' :: '-' :: r) = true at hneg
        unfold looksNegative at hneg
        simp only [List.isEmpty_cons, Bool.not_false, Bool.true_and, List.all_cons, show isDigit '-' = false from rfl, Bool.false_and,
          Bool.false_or, split1, show ¬ ('-' : Char) = '.' from by decide, if_false] at hneg
        split at hneg
        · rename_i u v huv
          split at huv
          · cases huv
            simp [show isDigit '-' = false from rfl] at hneg
          · cases huv
        · cases hneg
      · exact absurd (by simpa using hneg) hsp
    · cases hcl
      exact absurd ht (h2 _)

/-! ## `main` -/

/-- Functions of commands -/
theorem command_function (dir : Option Str) {c : Str} {p : ParserDef} (hc : (c, p) ∈ commandParsers dir) :
    ∃ x ∈ commandOf, c = x.1.toList ∧ ("command_".toList ++ c.map fun x => if x = '-' then '_' else x) = x.2.toList ∧ x.2.toList ∈ commandFunctions := by
  have : ((commandParsers dir).all fun y => commandOf.any fun x => decide (y.1 = x.1.toList) &&
      (decide (("command_".toList ++ y.1.map fun x => if x = '-' then '_' else x) = x.2.toList) && decide (x.2.toList ∈ commandFunctions))) = true := rfl
  have h := List.all_eq_true.1 this _ hc
  simp only [List.any_eq_true, Bool.and_eq_true, decide_eq_true_eq] at h
  exact h

set_option maxHeartbeats 4000000 in
/-- Attributes of the storage: the two options, or none -/
theorem storage_attrs (dir : Option Str) {c : Str} {p : ParserDef} (hc : (c, p) ∈ commandParsers dir) {rest : List Str} {ns : Dict Str ArgVal}
    (hp : ParserOk p) (hn : NsOk p rest ns) (x : String × String) (hx : x ∈ commandOf) (hcx : c = x.1.toList) :
    (UsesStorage x.2 ∧ HasOptText ns "storage" ∧ ∃ v, ns.get? "patchline".toList = some v ∧
        (v = .none ∨ v = .str "pbe".toList ∨ v = .str "live".toList)) ∨
      (¬ UsesStorage x.2 ∧ ns.get? "storage".toList = none) := by
  have yes : ∀ f, UsesStorage f → Ty.optText.check p "storage".toList = true → ((p.opts.find? fun o => decide (o.kind ≠ .help ∧ o.dest = "patchline".toList)).map OptDef.default) = some .none →
      (p.opts.all fun o => o.dest != "patchline".toList || decide (o.kind = .one (some ["pbe".toList, "live".toList]))) = true →
      (∀ q ∈ p.pos, q.dest ≠ "patchline".toList) → (UsesStorage f ∧ HasOptText ns "storage" ∧ ∃ v, ns.get? "patchline".toList = some v ∧
        (v = .none ∨ v = .str "pbe".toList ∨ v = .str "live".toList)) := by
    intro f hu h1 h2 h3 h4
    simp only [List.all_eq_true, Bool.or_eq_true, bne_iff_ne, decide_eq_true_eq] at h3
    have h2 : p.defaults.get? "patchline".toList = some .none := by
      rw [defaults_get p hp, h2]
      rfl
    refine ⟨hu, has_optText hp hn _ h1, ?_⟩
    have hne : ns.get? "patchline".toList ≠ none := fun e => by
      rw [(hn.1 _).1 e] at h2
      cases h2
    obtain ⟨v, hv⟩ := Option.ne_none_iff_exists'.1 hne
    refine ⟨v, hv, ?_⟩
    rcases hn.2 _ _ hv with hd | ⟨o, ho, hod, hg⟩ | ⟨q, hq, hqd, -⟩
    · rw [h2] at hd
      cases hd
      exact Or.inl rfl
    · have hk := (h3 o ho).resolve_left (fun e => e hod)
      unfold CanGive at hg
      rw [hk] at hg
      obtain ⟨s, hs, rfl, -⟩ := hg
      simp only [List.mem_cons, List.not_mem_nil, or_false] at hs
      rcases hs with rfl | rfl
      · exact Or.inr (Or.inl rfl)
      · exact Or.inr (Or.inr rfl)
    · exact absurd hqd (h4 q hq)
  have no : ∀ f, ¬ UsesStorage f → (p.opts.find? fun o => decide (o.kind ≠ .help ∧ o.dest = "storage".toList)) = none →
      (∀ q ∈ p.pos, q.dest ≠ "storage".toList) → (¬ UsesStorage f ∧ ns.get? "storage".toList = none) := by
    intro f hu h h'
    refine ⟨hu, (hn.1 _).2 ?_⟩
    rw [defaults_get p hp, h]
    cases hq : p.pos with
    | none => rfl
    | some q => exact if_neg (h' q (by simp [hq]))
  subst hcx
  simp only [commandParsers, List.mem_cons, Prod.mk.injEq, List.not_mem_nil, or_false] at hc
  simp only [commandOf, List.mem_cons, List.not_mem_nil, or_false] at hx
  rcases hx with rfl | rfl | rfl | rfl | rfl | rfl | rfl | rfl | rfl | rfl
  · rcases hc with ⟨-, rfl⟩ | ⟨h, -⟩ | ⟨h, -⟩ | ⟨h, -⟩ | ⟨h, -⟩ | ⟨h, -⟩ | ⟨h, -⟩ | ⟨h, -⟩ | ⟨h, -⟩ | ⟨h, -⟩
    any_goals exact absurd h (by decide +kernel)
    exact Or.inl (yes _ (by unfold UsesStorage; decide +kernel) rfl rfl rfl (by rintro q ⟨⟩; decide +kernel))
  · rcases hc with ⟨h, -⟩ | ⟨-, rfl⟩ | ⟨h, -⟩ | ⟨h, -⟩ | ⟨h, -⟩ | ⟨h, -⟩ | ⟨h, -⟩ | ⟨h, -⟩ | ⟨h, -⟩ | ⟨h, -⟩
    any_goals exact absurd h (by decide +kernel)
    exact Or.inl (yes _ (by unfold UsesStorage; decide +kernel) rfl rfl rfl (by rintro q ⟨⟩; decide +kernel))
  · rcases hc with ⟨h, -⟩ | ⟨h, -⟩ | ⟨-, rfl⟩ | ⟨h, -⟩ | ⟨h, -⟩ | ⟨h, -⟩ | ⟨h, -⟩ | ⟨h, -⟩ | ⟨h, -⟩ | ⟨h, -⟩
    any_goals exact absurd h (by decide +kernel)
    exact Or.inl (yes _ (by unfold UsesStorage; decide +kernel) rfl rfl rfl (by rintro q ⟨⟩; decide +kernel))
  · rcases hc with ⟨h, -⟩ | ⟨h, -⟩ | ⟨h, -⟩ | ⟨-, rfl⟩ | ⟨h, -⟩ | ⟨h, -⟩ | ⟨h, -⟩ | ⟨h, -⟩ | ⟨h, -⟩ | ⟨h, -⟩
    any_goals exact absurd h (by decide +kernel)
    exact Or.inr (no _ (by unfold UsesStorage; decide +kernel) rfl (by rintro q ⟨⟩))
  · rcases hc with ⟨h, -⟩ | ⟨h, -⟩ | ⟨h, -⟩ | ⟨h, -⟩ | ⟨-, rfl⟩ | ⟨h, -⟩ | ⟨h, -⟩ | ⟨h, -⟩ | ⟨h, -⟩ | ⟨h, -⟩
    any_goals exact absurd h (by decide +kernel)
    exact Or.inr (no _ (by unfold UsesStorage; decide +kernel) rfl (by rintro q ⟨⟩; decide +kernel))
  · rcases hc with ⟨h, -⟩ | ⟨h, -⟩ | ⟨h, -⟩ | ⟨h, -⟩ | ⟨h, -⟩ | ⟨-, rfl⟩ | ⟨h, -⟩ | ⟨h, -⟩ | ⟨h, -⟩ | ⟨h, -⟩
    any_goals exact absurd h (by decide +kernel)
    exact Or.inr (no _ (by unfold UsesStorage; decide +kernel) rfl (by rintro q ⟨⟩; decide +kernel))
  · rcases hc with ⟨h, -⟩ | ⟨h, -⟩ | ⟨h, -⟩ | ⟨h, -⟩ | ⟨h, -⟩ | ⟨h, -⟩ | ⟨-, rfl⟩ | ⟨h, -⟩ | ⟨h, -⟩ | ⟨h, -⟩
    any_goals exact absurd h (by decide +kernel)
    exact Or.inl (yes _ (by unfold UsesStorage; decide +kernel) rfl rfl rfl (by rintro q ⟨⟩; decide +kernel))
  · rcases hc with ⟨h, -⟩ | ⟨h, -⟩ | ⟨h, -⟩ | ⟨h, -⟩ | ⟨h, -⟩ | ⟨h, -⟩ | ⟨h, -⟩ | ⟨-, rfl⟩ | ⟨h, -⟩ | ⟨h, -⟩
    any_goals exact absurd h (by decide +kernel)
    exact Or.inl (yes _ (by unfold UsesStorage; decide +kernel) rfl rfl rfl (by rintro q ⟨⟩; decide +kernel))
  · rcases hc with ⟨h, -⟩ | ⟨h, -⟩ | ⟨h, -⟩ | ⟨h, -⟩ | ⟨h, -⟩ | ⟨h, -⟩ | ⟨h, -⟩ | ⟨h, -⟩ | ⟨-, rfl⟩ | ⟨h, -⟩
    any_goals exact absurd h (by decide +kernel)
    exact Or.inr (no _ (by unfold UsesStorage; decide +kernel) rfl (by rintro q ⟨⟩; decide +kernel))
  · rcases hc with ⟨h, -⟩ | ⟨h, -⟩ | ⟨h, -⟩ | ⟨h, -⟩ | ⟨h, -⟩ | ⟨h, -⟩ | ⟨h, -⟩ | ⟨h, -⟩ | ⟨h, -⟩ | ⟨-, rfl⟩
    any_goals exact absurd h (by decide +kernel)
    exact Or.inr (no _ (by unfold UsesStorage; decide +kernel) rfl (by rintro q ⟨⟩; decide +kernel))

set_option maxHeartbeats 4000000 in
theorem expects_of (dir : Option Str) {c : Str} {p : ParserDef} (hc : (c, p) ∈ commandParsers dir) {rest : List Str} {ns : Dict Str ArgVal}
    (hp : ParserOk p) (hn : NsOk p rest ns) (hpos : ∀ q ∈ p.pos, ∃ ws v, ns.get? q.dest = some v ∧ PosTells q.kind ws v ∧ ∀ w ∈ ws, w ∈ rest)
    (x : String × String) (hx : x ∈ commandOf) (hcx : c = x.1.toList) : Expects x.2 ns := by
  subst hcx
  have one : ∀ d, p.pos = some ⟨d, .one none⟩ → ∃ s, ns.get? d = some (.str s) := by
    intro d hd
    obtain ⟨ws, v, h1, ⟨s, -, rfl⟩, -⟩ := hpos _ hd
    exact ⟨s, h1⟩
  simp only [commandParsers, List.mem_cons, Prod.mk.injEq, List.not_mem_nil, or_false] at hc
  simp only [commandOf, List.mem_cons, List.not_mem_nil, or_false] at hx
  rcases hx with rfl | rfl | rfl | rfl | rfl | rfl | rfl | rfl | rfl | rfl
  · rcases hc with ⟨-, rfl⟩ | ⟨h, -⟩ | ⟨h, -⟩ | ⟨h, -⟩ | ⟨h, -⟩ | ⟨h, -⟩ | ⟨h, -⟩ | ⟨h, -⟩ | ⟨h, -⟩ | ⟨h, -⟩
    · obtain ⟨ws, v, h1, ⟨h2, rfl⟩, -⟩ := hpos _ rfl
      cases ws with
      | nil => exact absurd rfl h2
      | cons s l => exact ⟨⟨s, l, h1⟩, has_langs hp hn _ rfl⟩
    all_goals exact absurd h (by decide +kernel)
  · rcases hc with ⟨h, -⟩ | ⟨-, rfl⟩ | ⟨h, -⟩ | ⟨h, -⟩ | ⟨h, -⟩ | ⟨h, -⟩ | ⟨h, -⟩ | ⟨h, -⟩ | ⟨h, -⟩ | ⟨h, -⟩
    · exact absurd h (by decide +kernel)
    · exact ⟨one _ rfl, has_langs hp hn _ rfl, has_bool hp hn _ rfl⟩
    all_goals exact absurd h (by decide +kernel)
  · rcases hc with ⟨h, -⟩ | ⟨h, -⟩ | ⟨-, rfl⟩ | ⟨h, -⟩ | ⟨h, -⟩ | ⟨h, -⟩ | ⟨h, -⟩ | ⟨h, -⟩ | ⟨h, -⟩ | ⟨h, -⟩
    any_goals exact absurd h (by decide +kernel)
    obtain ⟨ws, v, h1, ⟨s, hs, -, rfl⟩, -⟩ := hpos _ rfl
    refine ⟨has_bool hp hn _ rfl, ?_⟩
    simp only [List.mem_cons, List.not_mem_nil, or_false] at hs
    rcases hs with rfl | rfl | rfl
    · exact ⟨"patch", by simp, h1⟩
    · exact ⟨"game", by simp, h1⟩
    · exact ⟨"client", by simp, h1⟩
  · trivial
  · rcases hc with ⟨h, -⟩ | ⟨h, -⟩ | ⟨h, -⟩ | ⟨h, -⟩ | ⟨-, rfl⟩ | ⟨h, -⟩ | ⟨h, -⟩ | ⟨h, -⟩ | ⟨h, -⟩ | ⟨h, -⟩
    any_goals exact absurd h (by decide +kernel)
    exact ⟨one _ rfl, has_optText hp hn _ rfl, has_optText hp hn _ rfl, has_choice hp hn _ _ rfl, has_optTexts hp hn _ rfl, has_bool hp hn _ rfl⟩
  · rcases hc with ⟨h, -⟩ | ⟨h, -⟩ | ⟨h, -⟩ | ⟨h, -⟩ | ⟨h, -⟩ | ⟨-, rfl⟩ | ⟨h, -⟩ | ⟨h, -⟩ | ⟨h, -⟩ | ⟨h, -⟩
    any_goals exact absurd h (by decide +kernel)
    exact ⟨one _ rfl, has_optText hp hn _ rfl⟩
  · rcases hc with ⟨h, -⟩ | ⟨h, -⟩ | ⟨h, -⟩ | ⟨h, -⟩ | ⟨h, -⟩ | ⟨h, -⟩ | ⟨-, rfl⟩ | ⟨h, -⟩ | ⟨h, -⟩ | ⟨h, -⟩
    any_goals exact absurd h (by decide +kernel)
    obtain ⟨ws, v, h1, h2, -⟩ := hpos _ rfl
    simp only [PosTells] at h2
    subst h2
    exact ⟨has_bool hp hn _ rfl, ⟨_, h1⟩, has_optText hp hn _ rfl, has_bool hp hn _ rfl⟩
  · rcases hc with ⟨h, -⟩ | ⟨h, -⟩ | ⟨h, -⟩ | ⟨h, -⟩ | ⟨h, -⟩ | ⟨h, -⟩ | ⟨h, -⟩ | ⟨-, rfl⟩ | ⟨h, -⟩ | ⟨h, -⟩
    any_goals exact absurd h (by decide +kernel)
    obtain ⟨ws, v, h1, h2, -⟩ := hpos _ rfl
    have hpatch : HasOptText ns "patch" := by
      rcases h2 with ⟨-, rfl⟩ | ⟨s, -, rfl⟩
      · exact Or.inl h1
      · exact Or.inr ⟨s, h1⟩
    exact ⟨has_bool hp hn _ rfl, has_bool hp hn _ rfl, hpatch, has_optText hp hn _ rfl, has_optText hp hn _ rfl, has_text hp hn _ rfl⟩
  · rcases hc with ⟨h, -⟩ | ⟨h, -⟩ | ⟨h, -⟩ | ⟨h, -⟩ | ⟨h, -⟩ | ⟨h, -⟩ | ⟨h, -⟩ | ⟨h, -⟩ | ⟨-, rfl⟩ | ⟨h, -⟩
    any_goals exact absurd h (by decide +kernel)
    exact ⟨one _ rfl, has_optText hp hn _ rfl, has_bool hp hn _ rfl⟩
  · rcases hc with ⟨h, -⟩ | ⟨h, -⟩ | ⟨h, -⟩ | ⟨h, -⟩ | ⟨h, -⟩ | ⟨h, -⟩ | ⟨h, -⟩ | ⟨h, -⟩ | ⟨h, -⟩ | ⟨-, rfl⟩
    any_goals exact absurd h (by decide +kernel)
    exact ⟨one _ rfl, has_optText hp hn _ rfl⟩

/-- What is needed to call a function: the command is one of the documented ones, the function is the one of this command; all the attributes
it reads are there, with values it expects. The storage is the one selected by the options, and is there when the function uses it. -/
theorem C81_call (fs : FS) (json : ConfLib) (env dir : Option Str) (argv : List Str) (f : Str) (args : Dict Str ArgVal) (st : Option StorageObj)
    (root : LogLevel) (own : Option LogLevel) (h : mainRun fs json env dir argv = .call f args st root own) :
    ∃ c f' : String, (c, f') ∈ commandOf ∧ f = f'.toList ∧ c.toList ∈ argv ∧ Expects f' args ∧
      ((UsesStorage f' ∧ ∃ s p storage, args.get? "storage".toList = some s ∧ args.get? "patchline".toList = some p ∧
          (p = .none ∨ p = .str "pbe".toList ∨ p = .str "live".toList) ∧ parseStorageArgs fs json env s.text? p.text? = .ok storage ∧ st = some storage) ∨
        (¬ UsesStorage f' ∧ st = none)) := by
  unfold mainRun at h
  split at h
  · cases h
  · cases h
  · cases h
  · rename_i n c ns hm
    obtain ⟨p, hc, hca, rest, hr, hns⟩ := parseMain_sound dir argv n c ns hm
    have hp := (commandParsers_ok dir _ hc).1
    obtain ⟨h1, h2, -⟩ := parse_sound hp hns
    obtain ⟨⟨c', f'⟩, hx, hcx, hfx, hmem⟩ := command_function dir hc
    have hst := storage_attrs dir hc hp h1 _ hx hcx
    have hex := expects_of dir hc hp h1 h2 _ hx hcx
    split at h
    · cases h
    · cases h
    · rename_i st' hs
      simp only [hfx] at h
      rw [if_pos hmem] at h
      cases h
      refine ⟨c', f', hx, rfl, by rw [← hcx]; exact hca, hex, ?_⟩
      unfold mainStorage at hs
      rcases hst with ⟨hu, hso, v, hv, hv'⟩ | ⟨hu, hso⟩
      · left
        have : ∃ s, args.get? "storage".toList = some s := by
          rcases hso with hso | ⟨s, hso⟩
          · exact ⟨_, hso⟩
          · exact ⟨_, hso⟩
        obtain ⟨s, hs'⟩ := this
        rw [hs', hv] at hs
        simp only at hs
        cases hpa : parseStorageArgs fs json env s.text? v.text? with
        | error e => rw [hpa] at hs; cases hs
        | ok y =>
          rw [hpa] at hs
          cases hs
          exact ⟨hu, s, v, y, hs', hv, hv', hpa, rfl⟩
      · right
        rw [hso] at hs
        cases hs
        exact ⟨hu, rfl⟩

/-- Exceptions before commands are called are those of the selection of the storage: there is a function for each command. -/
theorem C81_failed (fs : FS) (json : ConfLib) (env dir : Option Str) (argv : List Str) (e : Err) (h : mainRun fs json env dir argv = .failed e) :
    ∃ storage patchline, parseStorageArgs fs json env storage patchline = .error e := by
  unfold mainRun at h
  split at h
  · cases h
  · cases h
  · cases h
  · rename_i n c ns hm
    obtain ⟨p, hc, hca, rest, hr, hns⟩ := parseMain_sound dir argv n c ns hm
    have hp := (commandParsers_ok dir _ hc).1
    obtain ⟨h1, h2, -⟩ := parse_sound hp hns
    obtain ⟨⟨c', f'⟩, hx, hcx, hfx, hmem⟩ := command_function dir hc
    have hst := storage_attrs dir hc hp h1 _ hx hcx
    split at h
    · cases h
    · rename_i e' hs
      cases h
      unfold mainStorage at hs
      rcases hst with ⟨hu, hso, v, hv, hv'⟩ | ⟨hu, hso⟩
      · split at hs
        · cases hs
        · rename_i s hs'
          rw [hv] at hs
          simp only at hs
          cases hpa : parseStorageArgs fs json env s.text? v.text? with
          | error e' =>
            rw [hpa] at hs
            cases hs
            exact ⟨_, _, hpa⟩
          | ok y => rw [hpa] at hs; cases hs
      · rw [hso] at hs
        cases hs
    · simp only [hfx] at h
      rw [if_pos hmem] at h
      cases h

/-- Each of the documented commands calls its function, with any options: what is called depends on the words after the command only, and on the
number of `-v` for the levels of messages. -/
theorem C81_dispatch (fs : FS) (json : ConfLib) (env dir : Option Str) (c f : String) (hc : (c, f) ∈ commandOf) (n : Nat) (rest : List Str)
    (hr : ∀ w ∈ rest, ¬ "--=".toList <+: w) :
    ∃ p, (c.toList, p) ∈ commandParsers dir ∧
      mainRun fs json env dir (List.replicate n "-v".toList ++ c.toList :: rest) =
        match p.parse rest with
        | .error .usage => .usage
        | .error .help => .help
        | .ok args => match mainStorage fs json env args with
          | .error .usage => .usage
          | .error e => .failed e
          | .ok st => .call f.toList args st (rootLevel n) (cdtbLevel n) := by
  have chk : (commandOf.all fun x => (commandParsers dir).any fun y => decide (y.1 = x.1.toList)) = true := rfl
  have hex := List.all_eq_true.1 chk _ hc
  simp only [List.any_eq_true, decide_eq_true_eq] at hex
  obtain ⟨⟨c', p⟩, hp, hcc⟩ := hex
  simp only at hcc
  subst hcc
  refine ⟨p, hp, ?_⟩
  obtain ⟨ts, hts, -⟩ := tokens_main rest hr
  unfold mainRun
  rw [parseMain_command dir hp n rest ⟨ts, hts⟩]
  have hfun : ("command_".toList ++ c.toList.map fun x => if x = '-' then '_' else x) = f.toList ∧ f.toList ∈ commandFunctions := by
    have : (commandOf.all fun x => decide (("command_".toList ++ x.1.toList.map fun x => if x = '-' then '_' else x) = x.2.toList ∧
      x.2.toList ∈ commandFunctions)) = true := rfl
    have h := List.all_eq_true.1 this _ hc
    exact of_decide_eq_true h
  cases hpr : p.parse rest with
  | error e => cases e <;> rfl
  | ok args =>
    simp only [Except.map]
    cases mainStorage fs json env args with
    | error e => cases e <;> rfl
    | ok st => simp only [hfun.1, if_pos hfun.2]

/-- Without command, the help is printed and nothing is done. -/
theorem C81_no_command (fs : FS) (json : ConfLib) (env dir : Option Str) (n : Nat) :
    mainRun fs json env dir (List.replicate n "-v".toList) = .help := by
  have : parseMain dir (List.replicate n "-v".toList) = .ok ⟨n, none⟩ := by
    unfold parseMain
    have h := tokens_verbose n []
    rw [List.append_nil] at h
    rw [h, tokens_nil]
    simp only [Except.map, bind, Except.bind, List.append_nil]
    rw [List.zip_replicate']
    have h2 := mainLoop_verbose (commandParsers dir) 0 n false "-v".toList []
    rw [List.append_nil] at h2
    rw [h2, Nat.zero_add]
    rfl
  unfold mainRun
  rw [this]

/-- Messages: informations of the toolbox need one `-v`, its debug messages two, those of libraries three. -/
theorem C81_verbose (n : Nat) :
    (MsgShown (rootLevel n) (cdtbLevel n) .info ↔ 1 ≤ n) ∧ (MsgShown (rootLevel n) (cdtbLevel n) .debug ↔ 2 ≤ n) ∧
    (MsgShown (rootLevel n) none .info ↔ 1 ≤ n) ∧ (MsgShown (rootLevel n) none .debug ↔ 3 ≤ n) ∧
    MsgShown (rootLevel n) (cdtbLevel n) .warning ∧ MsgShown (rootLevel n) none .warning := by
  match n with
  | 0 => simp [MsgShown, rootLevel, cdtbLevel]
  | 1 => simp [MsgShown, rootLevel, cdtbLevel]
  | 2 => simp [MsgShown, rootLevel, cdtbLevel]
  | n + 3 => simp [MsgShown, rootLevel, cdtbLevel]

/-! ## Examples -/

namespace C81ex

/-- Words of a command line -/
def line (l : List String) : List Str := l.map String.toList

/-- A command line with options before and after the patch: the last of `--previous` and `--full` counts -/
example : parseMain none (line ["-v", "-v", "export", "--lazy", "-o", "out", "9.2", "--previous", "9.1", "--full", "-L"]) =
    .ok ⟨2, some ("export".toList, [("storage".toList, .none), ("patchline".toList, .none), ("output".toList, .str "out".toList),
      ("symlinks".toList, .bool true), ("previous".toList, .str "none".toList), ("first".toList, .none), ("lazy".toList, .bool true),
      ("patch".toList, .str "9.2".toList)])⟩ := by rfl

/-- The hypotheses of `C81_plain` are met by this command line -/
example : ∃ p, ("export".toList, p) ∈ commandParsers none ∧ ∃ before after : List GivenOpt,
    (∀ g ∈ before ++ after, g.Fits p.opts) ∧ ¬ EndsOpen before ∧
    optWords before ++ line ["9.2"] ++ optWords after = line ["--lazy", "-o", "out", "9.2", "--previous", "9.1", "--full", "-L"] := by
  refine ⟨_, .tail _ (.tail _ (.tail _ (.tail _ (.tail _ (.tail _ (.tail _ (.head _))))))), [⟨optTrue ["--lazy"] "lazy", "--lazy".toList, []⟩,
    ⟨optOne ["-o", "--output"] "output" (.str "export".toList), "-o".toList, ["out".toList]⟩],
    [⟨optOne ["--previous"] "previous", "--previous".toList, ["9.1".toList]⟩,
     ⟨⟨["--full".toList], "previous".toList, .flag (.str "none".toList), .none⟩, "--full".toList, []⟩,
     ⟨optTrue ["-L", "--symlinks"] "symlinks", "-L".toList, []⟩], ?_, ?_, rfl⟩
  · intro g hg
    simp only [List.cons_append, List.nil_append, List.mem_cons, List.not_mem_nil, or_false] at hg
    rcases hg with rfl | rfl | rfl | rfl | rfl
    · exact ⟨by decide, by decide, by simp, rfl⟩
    · exact ⟨by decide, by decide, by simp [PlainWord], ⟨_, rfl⟩⟩
    · exact ⟨by decide, by decide, by simp [PlainWord], ⟨_, rfl⟩⟩
    · exact ⟨by decide, by decide, by simp, rfl⟩
    · exact ⟨by decide, by decide, by simp, rfl⟩
  · rintro ⟨g, hg, hk⟩
    cases hg
    cases hk

/-- Languages before components: refused. With `--`, or with components first: accepted. -/
example : parseMain none (line ["download", "--lang", "fr_fr", "patch=9.1"]) = .error .usage ∧
    parseMain none (line ["download", "--lang", "fr_fr", "--", "patch=9.1"]) =
      .ok ⟨0, some ("download".toList, [("storage".toList, .none), ("patchline".toList, .none), ("langs".toList, .list (line ["fr_fr"])),
        ("component".toList, .list (line ["patch=9.1"]))])⟩ ∧
    parseMain none (line ["download", "patch=9.1", "--lang", "fr_fr"]) = parseMain none (line ["download", "--lang", "fr_fr", "--", "patch=9.1"]) := by
  refine ⟨rfl, rfl, rfl⟩

/-- Abbreviations, letters, repeated options, choices -/
example : parseMain none (line ["wad-extract", "-p*.bin", "a.wad", "--pat=*.txt", "-uonly", "--la"]) =
      .ok ⟨0, some ("wad-extract".toList, [("output".toList, .none), ("hashes".toList, .none), ("pattern".toList, .list (line ["*.bin", "*.txt"])),
        ("unknown".toList, .str "only".toList), ("lazy".toList, .bool true), ("wad".toList, .str "a.wad".toList)])⟩ ∧
    parseMain none (line ["export", "--f", "9.1"]) = .error .usage ∧
    parseMain none (line ["versions", "foo"]) = .error .usage ∧
    parseMain none (line ["hashes-guess", "a.wad", "-n", "b.wad"]) = .error .usage ∧
    parseMain none (line ["download", "--all", "patch=9.1"]) = .error .usage ∧
    parseMain none (line ["files", "-h", "--bogus"]) = .error .help ∧
    parseMain none (line ["explode"]) = .error .usage := by
  refine ⟨rfl, rfl, rfl, rfl, rfl, rfl, rfl⟩

/-- Calls: the storage is needed to list methods too; `--patchline` is ignored without path -/
example : mainRun (fun _ => none) (fun _ => .error .value) none none (line ["hashes-guess", "--list-methods", "-s", "zip:a"]) = .failed .value ∧
    mainRun (fun _ => none) (fun _ => .error .value) none none (line ["-v", "versions", "--patchline", "pbe", "game"]) =
      .call "command_versions".toList [("storage".toList, .none), ("patchline".toList, .str "pbe".toList), ("stored".toList, .bool true),
        ("type".toList, .str "game".toList)] (some (.patcher (.str "cdn".toList) (.str "live".toList) true .null)) .info (some .info) ∧
    mainRun (fun _ => none) (fun _ => .error .value) none none (line ["-vvv", "wad-list", "a.wad"]) =
      .call "command_wad_list".toList [("hashes".toList, .none), ("wad".toList, .str "a.wad".toList)] none .debug (some .debug) ∧
    mainRun (fun _ => none) (fun _ => .error .value) none none (line ["export", "--patchline", "pbe", "-s", "rads:a", "9.1"]) = .usage := by
  refine ⟨rfl, rfl, rfl, rfl⟩

end C81ex

end Cdtb
