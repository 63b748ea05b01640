import Verif.Lemmas.ArgsSound
/-!
# Lemmas on command lines: the parsers of the toolbox
-/
namespace Cdtb
set_option autoImplicit false
open Py Spec

/-! ## The declared parsers -/

/-- Checked names and attributes of a parser -/
def parserCheck (p : ParserDef) : Bool :=
  decide ((p.opts.flatMap OptDef.names).Nodup) &&
  (p.opts.all fun o => o.names.all fun n => n.head? == some '-' && n != "--".toList && !("--=".toList.isPrefixOf n)) &&
  (p.opts.all fun o => o.kind != .append || ((p.opts.all fun x => x.dest != o.dest || x.kind == .append))) &&
  (p.opts.all fun o => o.kind != .append || o.default == .none) &&
  (p.opts.all fun o => o.kind != .count && (match p.pos with
    | some q => o.dest != q.dest
    | none => true))

theorem findOpt_of_nodup {opts : List OptDef} (h : (opts.flatMap OptDef.names).Nodup) {o : OptDef} (ho : o ∈ opts) {n : Str} (hn : n ∈ o.names) :
    findOpt opts n = some o := by
  induction opts with
  | nil => cases ho
  | cons x opts ih =>
    rw [List.flatMap_cons, List.nodup_append'] at h
    unfold findOpt at ih ⊢
    rw [List.find?_cons]
    rcases List.mem_cons.1 ho with rfl | ho
    · simp [hn]
    · have : x.names.contains n = false := by
        by_contra hc
        have hx : n ∈ x.names := by simpa using hc
        exact h.2.2 hx (List.mem_flatMap.2 ⟨o, ho, hn⟩)
      rw [this]
      exact ih h.2.1 ho

theorem parserOk_of_check {p : ParserDef} (h : parserCheck p = true) :
    ParserOk p ∧ ∀ o ∈ p.opts, ∀ n ∈ o.names, ¬ "--=".toList <+: n := by
  simp only [parserCheck, Bool.and_eq_true, decide_eq_true_eq, List.all_eq_true] at h
  obtain ⟨⟨⟨⟨h1, h2⟩, h3⟩, h4⟩, h5⟩ := h
  refine ⟨⟨?_, ?_, ?_, ?_⟩, ?_⟩
  · intro o ho n hn
    have := h2 o ho n hn
    simp only [Bool.and_eq_true, beq_iff_eq, bne_iff_ne] at this
    exact ⟨findOpt_of_nodup h1 ho hn, this.1.1, this.1.2⟩
  · intro o ho o' ho' hd ha
    have e3 := h3 o ho
    have e4 := h4 o ho
    rw [ha] at e3 e4
    simp only [bne_self_eq_false, Bool.false_or, List.all_eq_true, beq_iff_eq] at e3 e4
    have := e3 o' ho'
    simp only [hd, bne_self_eq_false, Bool.false_or, beq_iff_eq] at this
    exact ⟨this, e4⟩
  · intro q hq o ho
    have := h5 o ho
    rw [show p.pos = some q from hq] at this
    simp only [Bool.and_eq_true, bne_iff_ne] at this
    exact this.2
  · intro o ho
    have := h5 o ho
    simp only [Bool.and_eq_true, bne_iff_ne] at this
    exact this.1
  · intro o ho n hn hpre
    have := h2 o ho n hn
    simp only [Bool.and_eq_true, Bool.not_eq_true'] at this
    rw [List.isPrefixOf_iff_prefix.2 hpre] at this
    exact absurd this.2 (by simp)

theorem commandParsers_ok (dir : Option Str) : ∀ x ∈ commandParsers dir, ParserOk x.2 ∧ ∀ o ∈ x.2.opts, ∀ n ∈ o.names, ¬ "--=".toList <+: n := by
  intro x hx
  apply parserOk_of_check
  have : ((commandParsers dir).all fun x => parserCheck x.2) = true := by rfl
  exact List.all_eq_true.1 this x hx

/-! ## The options before the command -/

theorem optTuples_main (s : Str) (hl : s.length ≠ 1) (hd : s.head? = some '-') (h1 : s ≠ "--".toList) (h2 : ¬ "--=".toList <+: s) :
    (optTuples mainOpts s).length ≤ 1 := by
  have hs : ∃ o o', optStrings mainOpts = [(['-', 'h'], o), (['-', '-', 'h', 'e', 'l', 'p'], o), (['-', 'v'], o'),
      (['-', '-', 'v', 'e', 'r', 'b', 'o', 's', 'e'], o')] := ⟨_, _, rfl⟩
  obtain ⟨oh, ov, hs⟩ := hs
  match s, hl, hd, h1, h2 with
  | [], _, hd, _, _ => cases hd
  | [_], hl, _, _, _ => exact absurd rfl hl
  | a :: b :: r, _, hd, h1, h2 =>
    cases hd
    unfold optTuples
    by_cases hb : b = '-'
    · subst hb
      rw [if_pos (by rfl)]
      have hpre : ∃ c l, (longParts ('-' :: '-' :: r)).1 = '-' :: '-' :: c :: l := by
        cases r with
        | nil => exact absurd rfl h1
        | cons c l =>
          have hc : c ≠ '=' := by
            rintro rfl
            exact h2 ⟨l, rfl⟩
          simp only [longParts, split1, if_neg hc]
          cases split1 '=' l with
          | none => exact ⟨c, l, rfl⟩
          | some x => exact ⟨c, x.1, rfl⟩
      obtain ⟨c, l, hcl⟩ := hpre
      rw [hcl, hs, List.length_map]
      simp only [List.filter_cons, List.filter_nil, List.isPrefixOf]
      by_cases hc : c = 'h'
      · subst hc
        simp
        split <;> simp
      · simp [hc]
        split <;> simp
    · have hn : ("--".toList.isPrefixOf ('-' :: b :: r)) = false := by
        change ('-' == '-' && ('-' == b && _)) = false
        simp [Ne.symm hb]
      rw [hn, if_neg (by simp), hs]
      have ht : List.take 2 ('-' :: b :: r) = ['-', b] := by simp
      rw [ht]
      simp only [List.filterMap_cons, List.filterMap_nil, List.isPrefixOf, List.cons.injEq, true_and, and_true, hb, Ne.symm hb, beq_self_eq_true,
        Bool.true_and, reduceCtorEq, and_false, if_false]
      by_cases hc : 'h' = b
      · subst hc
        simp
      · by_cases hv : 'v' = b
        · subst hv
          simp
        · have e1 : (b == 'h') = false := by simpa using Ne.symm hc
          have e2 : (b == 'v') = false := by simpa using Ne.symm hv
          have e3 : (b == '-') = false := by simpa using hb
          simp [hc, hv, e1, e2, e3]

theorem classify_main (s : Str) (h1 : s ≠ "--".toList) (h2 : ¬ "--=".toList <+: s) : ∃ t, classify mainOpts s = .ok t := by
  unfold classify
  split
  · exact ⟨_, rfl⟩
  rename_i hd
  split
  · exact ⟨_, rfl⟩
  split
  · exact ⟨_, rfl⟩
  rename_i hl
  split
  · exact ⟨_, rfl⟩
  have ht := optTuples_main s hl (by simpa using hd) h1 h2
  split
  · exact ⟨_, rfl⟩
  · rename_i he
    rw [he] at ht
    simp at ht
  · split <;> exact ⟨_, rfl⟩

theorem tokens_main (argv : List Str) (h : ∀ w ∈ argv, ¬ "--=".toList <+: w) : ∃ ts, tokens mainOpts argv = .ok ts ∧ ts.length = argv.length := by
  induction argv with
  | nil => exact ⟨[], rfl, rfl⟩
  | cons s l ih =>
    obtain ⟨ts, h1, h2⟩ := ih (fun w hw => h w (by simp [hw]))
    simp only [tokens]
    split
    · exact ⟨_, rfl, by simp⟩
    · rename_i hs
      obtain ⟨t, ht⟩ := classify_main s hs (h s (by simp))
      rw [ht, h1]
      exact ⟨_, rfl, by simp [h2]⟩

/-- `-v` -/
def optVerbose : OptDef := ⟨["-v".toList, "--verbose".toList], "verbose".toList, .count, .nat 0⟩

theorem mainLoop_verbose (parsers : List (Str × ParserDef)) (n k : Nat) (bad : Bool) (w : Str) (l : List (Tok × Str)) :
    mainLoop parsers n bad (List.replicate k (.opt optVerbose "-v".toList false none, w) ++ l) = mainLoop parsers (n + k) bad l := by
  induction k generalizing n with
  | zero => rfl
  | succ k ih =>
    rw [List.replicate_succ, List.cons_append]
    have : mainLoop parsers n bad ((.opt optVerbose "-v".toList false none, w) :: (List.replicate k (.opt optVerbose "-v".toList false none, w) ++ l)) =
        mainLoop parsers (n + 1) (bad || false) (List.replicate k (.opt optVerbose "-v".toList false none, w) ++ l) := rfl
    rw [this, Bool.or_false, ih]
    congr 1
    omega

theorem tokens_verbose (k : Nat) (rest : List Str) :
    tokens mainOpts (List.replicate k "-v".toList ++ rest) =
      (tokens mainOpts rest).map (List.replicate k (.opt optVerbose "-v".toList false none) ++ ·) := by
  induction k with
  | zero => cases h : tokens mainOpts rest <;> simp [h, Except.map]
  | succ k ih =>
    have hc : classify mainOpts "-v".toList = .ok (.opt optVerbose "-v".toList false none) := rfl
    have hn : ("-v".toList : Str) ≠ "--".toList := by decide
    rw [List.replicate_succ, List.cons_append]
    simp only [tokens, if_neg hn, hc, ih]
    cases h : tokens mainOpts rest <;> simp [Except.map, bind, Except.bind, List.replicate_succ]

theorem find_command (dir : Option Str) {c : Str} {p : ParserDef} (h : (c, p) ∈ commandParsers dir) :
    (commandParsers dir).find? (fun x => decide (x.1 = c)) = some (c, p) ∧ PlainWord c := by
  have hn : ((commandParsers dir).map Prod.fst).Nodup := by
    have : decide (((commandParsers dir).map Prod.fst).Nodup) = true := rfl
    exact of_decide_eq_true this
  constructor
  · generalize commandParsers dir = l at h hn
    induction l with
    | nil => cases h
    | cons x l ih =>
      rw [List.map_cons, List.nodup_cons] at hn
      rcases List.mem_cons.1 h with rfl | h
      · simp
      · have : x.1 ≠ c := fun e => hn.1 (e ▸ List.mem_map.2 ⟨(c, p), h, rfl⟩)
        rw [List.find?_cons, decide_eq_false this]
        exact ih h hn.2
  · have : ((commandParsers dir).all fun x => decide (x.1.head? ≠ some '-')) = true := rfl
    have h2 := List.all_eq_true.1 this _ h
    simpa [PlainWord] using h2

theorem tokens_length (opts : List OptDef) (argv : List Str) (ts : List Tok) (h : tokens opts argv = .ok ts) : ts.length = argv.length := by
  induction argv generalizing ts with
  | nil => cases h; rfl
  | cons s l ih =>
    simp only [tokens] at h
    split at h
    · cases h; simp
    · cases h1 : classify opts s with
      | error e => rw [h1] at h; cases h
      | ok t =>
        cases h2 : tokens opts l with
        | error e => rw [h1, h2] at h; cases h
        | ok ts' =>
          rw [h1, h2] at h
          cases h
          simp [ih ts' h2]

theorem parseMain_command (dir : Option Str) {c : Str} {p : ParserDef} (h : (c, p) ∈ commandParsers dir) (n : Nat) (rest : List Str)
    (hr : ∃ ts, tokens mainOpts rest = .ok ts) :
    parseMain dir (List.replicate n "-v".toList ++ c :: rest) = (p.parse rest).map fun ns => ⟨n, some (c, ns)⟩ := by
  obtain ⟨hf, hp⟩ := find_command dir h
  obtain ⟨ts, h1⟩ := hr
  have h2 := tokens_length _ _ _ h1
  unfold parseMain
  have ht := tokens_plain (opts := mainOpts) [c] rest (by simpa using hp)
  rw [tokens_verbose, show (c :: rest) = [c] ++ rest from rfl, ht, h1]
  simp only [Except.map, bind, Except.bind, List.map_cons, List.map_nil, List.singleton_append]
  rw [List.zip_append (by simp), List.zip_replicate', mainLoop_verbose]
  simp only [List.zip_cons_cons, mainLoop, hf]
  rw [show (ts.zip rest).map Prod.snd = rest from List.map_snd_zip (by omega)]
  cases p.parse rest with
  | error e => rfl
  | ok ns => simp [bind, Except.bind]

theorem mainLoop_command (parsers : List (Str × ParserDef)) (l : List (Tok × Str)) (n : Nat) (bad : Bool) (m : Nat) (c : Str) (ns : Dict Str ArgVal)
    (h : mainLoop parsers n bad l = .ok ⟨m, some (c, ns)⟩) :
    ∃ p, (c, p) ∈ parsers ∧ ∃ a w b, l = a ++ (.arg c, w) :: b ∧ p.parse (b.map Prod.snd) = .ok ns := by
  induction l generalizing n bad with
  | nil =>
    simp only [mainLoop] at h
    split at h <;> cases h
  | cons x l ih =>
    obtain ⟨t, w⟩ := x
    cases t with
    | sep => cases h
    | unknown s =>
      obtain ⟨p, hp, a, w', b, rfl, hb⟩ := ih n true h
      exact ⟨p, hp, (.unknown s, w) :: a, w', b, rfl, hb⟩
    | opt o name eq arg =>
      simp only [mainLoop] at h
      cases h1 : consumeOpt mainOpts ⟨[("verbose".toList, .nat n)], none, [], .idle⟩ o name eq arg with
      | error e => rw [h1] at h; cases h
      | ok st =>
        rw [h1] at h
        obtain ⟨p, hp, a, w', b, rfl, hb⟩ := ih _ _ h
        exact ⟨p, hp, (.opt o name eq arg, w) :: a, w', b, rfl, hb⟩
    | arg s =>
      simp only [mainLoop] at h
      split at h
      · cases h
      · rename_i y hy
        cases h1 : y.2.parse (l.map Prod.snd) with
        | error e => rw [h1] at h; cases h
        | ok ns' =>
          rw [h1] at h
          simp only [bind, Except.bind] at h
          split at h
          · cases h
          · cases h
            have hm := List.mem_of_find?_eq_some hy
            have hs := List.find?_some hy
            simp only [decide_eq_true_eq] at hs
            exact ⟨y.2, by rw [← hs]; exact hm, [], w, l, rfl, h1⟩

theorem parseMain_sound (dir : Option Str) (argv : List Str) (m : Nat) (c : Str) (ns : Dict Str ArgVal)
    (h : parseMain dir argv = .ok ⟨m, some (c, ns)⟩) :
    ∃ p, (c, p) ∈ commandParsers dir ∧ c ∈ argv ∧ ∃ rest, rest <:+ argv ∧ p.parse rest = .ok ns := by
  unfold parseMain at h
  cases h1 : tokens mainOpts argv with
  | error e => rw [h1] at h; cases h
  | ok ts =>
    rw [h1] at h
    obtain ⟨p, hp, a, w, b, hl, hb⟩ := mainLoop_command _ _ _ _ _ _ _ h
    have hca : c ∈ argv := by
      have hm : (Tok.arg c, w) ∈ ts.zip argv := by rw [hl]; simp
      exact tokens_in argv argv (fun _ h => h) h1 _ (List.of_mem_zip hm).1
    refine ⟨p, hp, hca, b.map Prod.snd, ?_, hb⟩
    have := congrArg (List.map Prod.snd) hl
    rw [List.map_snd_zip (by rw [tokens_length _ _ _ h1])] at this
    rw [this]
    exact ⟨(a.map Prod.snd) ++ [w], by simp⟩

theorem tokens_main_sep (a b : List Str) (h : ∀ w ∈ a, ¬ "--=".toList <+: w) : ∃ ts, tokens mainOpts (a ++ "--".toList :: b) = .ok ts := by
  induction a with
  | nil => exact ⟨_, by simp only [List.nil_append, tokens]; rfl⟩
  | cons s l ih =>
    obtain ⟨ts, h1⟩ := ih (fun w hw => h w (by simp [hw]))
    simp only [List.cons_append, tokens]
    split
    · exact ⟨_, rfl⟩
    · rename_i hs
      obtain ⟨t, ht⟩ := classify_main s hs (h s (by simp))
      rw [ht, h1]
      exact ⟨_, rfl⟩

/-! ## Words of options and of the positional argument -/

theorem effect_congr (ns ns' : Dict Str ArgVal) (g : GivenOpt) (k : Str) (h : ns.get? k = ns'.get? k) :
    (GivenOpt.effect ns g).get? k = (GivenOpt.effect ns' g).get? k := by
  by_cases hk : g.opt.dest = k
  · subst hk
    unfold GivenOpt.effect
    rw [h]
    split <;> first | exact h | (rw [Dict.get?_set_self, Dict.get?_set_self])
  · rw [effect_get_ne _ _ _ hk, effect_get_ne _ _ _ hk, h]

theorem effects_congr (gs : List GivenOpt) (ns ns' : Dict Str ArgVal) (k : Str) (h : ns.get? k = ns'.get? k) :
    (gs.foldl GivenOpt.effect ns).get? k = (gs.foldl GivenOpt.effect ns').get? k := by
  induction gs generalizing ns ns' with
  | nil => exact h
  | cons g gs ih => exact ih _ _ (effect_congr ns ns' g k h)

theorem given_mode (opts : List OptDef) (st st0 : PState) (hst : closeMode st = .ok st0) (h0 : st0.mode = .idle) (g : GivenOpt) (hg : g.Fits opts)
    (st1 : PState) (h : (GivenOpt.toks g).foldlM (parseStep opts) st = .ok st1) : st1.mode = .idle ∨ ∃ o acc, st1.mode = .many o acc := by
  obtain ⟨st2, e, c, hi⟩ := given_step opts st st0 hst h0 g hg
  rw [e] at h
  cases h
  by_cases hk : g.opt.kind = .many
  · right
    simp only [GivenOpt.toks, List.foldlM_cons, parseStep, hst, bind, Except.bind, consumeOpt, expandOpt, hk] at e
    have := many_args opts { st0 with mode := .many g.opt [] } g.opt [] g.vals rfl
    simp only [OptKind.noArg, Bool.false_eq_true, if_false, if_true, List.foldlM_nil, pure, Except.pure] at e
    rw [this] at e
    cases e
    exact ⟨_, _, rfl⟩
  · exact Or.inl (hi hk)

theorem givens_mode (opts : List OptDef) (gs : List GivenOpt) (hg : ∀ g ∈ gs, g.Fits opts) (st st0 : PState) (hst : closeMode st = .ok st0)
    (h0 : st0.mode = .idle) (hi : st.mode = .idle ∨ ∃ o acc, st.mode = .many o acc) (st1 : PState)
    (h : (gs.flatMap GivenOpt.toks).foldlM (parseStep opts) st = .ok st1) : st1.mode = .idle ∨ ∃ o acc, st1.mode = .many o acc := by
  induction gs generalizing st st0 with
  | nil => cases h; exact hi
  | cons g gs ih =>
    obtain ⟨st2, e2, c2, -⟩ := given_step opts st st0 hst h0 g (hg g (by simp))
    rw [List.flatMap_cons, List.foldlM_append, e2] at h
    exact ih (fun x hx => hg x (by simp [hx])) st2 _ c2 h0 (given_mode opts st st0 hst h0 g (hg g (by simp)) st2 e2) h

theorem parse_eq {p : ParserDef} {argv : List Str} {ts : List Tok} (h : tokens p.opts argv = .ok ts) {st : PState}
    (h2 : ts.foldlM (parseStep p.opts) ⟨p.defaults, p.pos, [], .idle⟩ = .ok st) : p.parse argv = parseEnd st := by
  unfold ParserDef.parse
  rw [h]
  simp only [bind, Except.bind]
  rw [h2]

theorem tokens_nil (opts : List OptDef) : tokens opts [] = .ok [] := rfl

theorem pos_default {p : ParserDef} (hp : ParserOk p) {q : PosDef} (hq : p.pos = some q) : p.defaults.get? q.dest = some .none := by
  rw [defaults_get p hp, hq]
  have hn : (p.opts.find? fun o => decide (o.kind ≠ .help ∧ o.dest = q.dest)) = none := by
    rw [List.find?_eq_none]
    intro o ho
    simp [hp.pos q (by simp [hq]) o ho]
  rw [hn]
  simp

theorem pos_not_opt {p : ParserDef} (hp : ParserOk p) {q : PosDef} (hq : p.pos = some q) (gs : List GivenOpt) (hg : ∀ g ∈ gs, g.Fits p.opts) :
    ∀ g ∈ gs, g.opt.dest ≠ q.dest := fun g h => hp.pos q (by simp [hq]) _ (hg g h).1

theorem parse_plain {p : ParserDef} (hp : ParserOk p) (before after : List GivenOpt) (hb : ∀ g ∈ before, g.Fits p.opts)
    (ha : ∀ g ∈ after, g.Fits p.opts) (ws : List Str) (hw : ∀ w ∈ ws, PlainWord w) (ho : ws ≠ [] → ¬ EndsOpen before) (v : ArgVal)
    (hv : match p.pos with
      | none => ws = []
      | some q => PosTells q.kind ws v) :
    ∃ ns, p.parse (optWords before ++ ws ++ optWords after) = .ok ns ∧
      (∀ k, (∀ q ∈ p.pos, q.dest ≠ k) → ns.get? k = ((before ++ after).foldl GivenOpt.effect p.defaults).get? k) ∧
      ∀ q ∈ p.pos, ns.get? q.dest = some v := by
  have ht : tokens p.opts (optWords before ++ ws ++ optWords after) =
      .ok (before.flatMap GivenOpt.toks ++ (ws.map Tok.arg ++ after.flatMap GivenOpt.toks)) := by
    rw [List.append_assoc, tokens_opts hp.opts before hb, tokens_plain ws _ hw, ← List.append_nil (optWords after), tokens_opts hp.opts after ha,
      tokens_nil]
    simp [Except.map]
  obtain ⟨st1, e1, c1, i1⟩ := given_steps p.opts before hb ⟨p.defaults, p.pos, [], .idle⟩ _ rfl rfl
  by_cases hws : ws = []
  · subst hws
    obtain ⟨st2, e2, c2, -⟩ := given_steps p.opts after ha st1 _ c1 rfl
    rw [parse_eq ht (st := st2) (by rw [List.foldlM_append, e1]; exact e2)]
    rw [← List.foldl_append] at c2
    cases hq : p.pos with
    | none =>
      rw [hq] at c2
      exact ⟨_, parseEnd_of_close c2, fun k _ => rfl, fun q h => by cases h⟩
    | some q =>
      rw [hq] at c2 hv
      simp only at hv
      have hab : ∀ g ∈ before ++ after, g.Fits p.opts := fun g h => (List.mem_append.1 h).elim (hb g) (ha g)
      rw [parseEnd_of_open c2]
      cases hk : q.kind with
      | one ch =>
        rw [hk] at hv
        cases ch with
        | none => obtain ⟨s, h, -⟩ := hv; cases h
        | some l => obtain ⟨s, -, h, -⟩ := hv; cases h
      | plus => rw [hk] at hv; exact absurd rfl hv.1
      | opt =>
        rw [hk] at hv
        have hvn : v = .none := by
          rcases hv with ⟨-, h⟩ | ⟨s, h, -⟩
          · exact h
          · cases h
        refine ⟨_, rfl, fun k _ => rfl, fun q' h => ?_⟩
        cases h
        rw [effects_get_ne _ _ _ (pos_not_opt hp hq _ hab), pos_default hp hq, hvn]
      | star =>
        rw [hk] at hv
        refine ⟨_, rfl, fun k h => ?_, fun q' h => ?_⟩
        · exact Dict.get?_set_ne _ _ (Ne.symm (h q rfl))
        · cases h
          rw [Dict.get?_set_self]
          exact congrArg some hv.symm
  · cases hq : p.pos with
    | none =>
      rw [hq] at hv
      exact absurd hv hws
    | some q =>
      rw [hq] at hv c1 e1 i1
      simp only at hv c1
      have hi := i1 (ho hws) (Or.inr rfl)
      have hst1 : st1 = ⟨before.foldl GivenOpt.effect p.defaults, some q, [], .idle⟩ := by
        unfold closeMode at c1
        rw [hi] at c1
        simpa using c1
      subst hst1
      obtain ⟨st2, e2, c2⟩ := pos_step p.opts (before.foldl GivenOpt.effect p.defaults) q ws hws v hv
      obtain ⟨st3, e3, c3, -⟩ := given_steps p.opts after ha st2 _ c2 rfl
      rw [parse_eq ht (st := st3) (by
        rw [hq, List.foldlM_append, e1]
        simp only [bind, Except.bind]
        rw [List.foldlM_append, e2]
        exact e3)]
      refine ⟨_, parseEnd_of_close c3, fun k h => ?_, fun q' h => ?_⟩
      · rw [List.foldl_append]
        exact effects_congr _ _ _ _ (Dict.get?_set_ne _ _ (Ne.symm (h q rfl)))
      · cases h
        rw [effects_get_ne _ _ _ (pos_not_opt hp hq _ ha), Dict.get?_set_self]

theorem parse_sep {p : ParserDef} (hp : ParserOk p) {q : PosDef} (hq : p.pos = some q) (gs : List GivenOpt) (hg : ∀ g ∈ gs, g.Fits p.opts)
    (ws : List Str) (v : ArgVal) (hv : PosTells q.kind ws v) :
    ∃ ns, p.parse (optWords gs ++ "--".toList :: ws) = .ok ns ∧
      (∀ k, q.dest ≠ k → ns.get? k = (gs.foldl GivenOpt.effect p.defaults).get? k) ∧ ns.get? q.dest = some v := by
  have ht : tokens p.opts (optWords gs ++ "--".toList :: ws) = .ok (gs.flatMap GivenOpt.toks ++ (.sep :: ws.map Tok.arg)) := by
    rw [tokens_opts hp.opts gs hg]
    simp only [tokens]
    rfl
  obtain ⟨st1, e1, c1, -⟩ := given_steps p.opts gs hg ⟨p.defaults, p.pos, [], .idle⟩ _ rfl rfl
  have hm := givens_mode p.opts gs hg ⟨p.defaults, p.pos, [], .idle⟩ _ rfl rfl (Or.inl rfl) st1 e1
  rw [hq] at c1
  simp only at c1
  have es : parseStep p.opts st1 .sep = .ok ⟨gs.foldl GivenOpt.effect p.defaults, some q, [], .idle⟩ := by
    obtain ⟨ns1, pos1, ex1, m1⟩ := st1
    simp only at hm
    rcases hm with rfl | ⟨o, acc, rfl⟩
    · simp only [closeMode, Except.ok.injEq, PState.mk.injEq] at c1
      obtain ⟨rfl, rfl, rfl, -⟩ := c1
      rfl
    · simp only [closeMode, Except.ok.injEq, PState.mk.injEq] at c1
      obtain ⟨h1, rfl, rfl, -⟩ := c1
      simp only [parseStep, h1]
      rfl
  have fold : ∀ st2, (ws.map Tok.arg).foldlM (parseStep p.opts) ⟨gs.foldl GivenOpt.effect p.defaults, some q, [], .idle⟩ = .ok st2 →
      p.parse (optWords gs ++ "--".toList :: ws) = parseEnd st2 := by
    intro st2 h
    refine parse_eq ht ?_
    rw [List.foldlM_append, e1]
    simp only [bind, Except.bind, List.foldlM_cons]
    rw [es]
    exact h
  by_cases hws : ws = []
  · subst hws
    have he := fold _ rfl
    rw [parseEnd_of_open rfl] at he
    rw [he]
    cases hk : q.kind with
    | one ch =>
      rw [hk] at hv
      cases ch with
      | none => obtain ⟨s, h, -⟩ := hv; cases h
      | some l => obtain ⟨s, -, h, -⟩ := hv; cases h
    | plus => rw [hk] at hv; exact absurd rfl hv.1
    | opt =>
      rw [hk] at hv
      have hvn : v = .none := by
        rcases hv with ⟨-, h⟩ | ⟨s, h, -⟩
        · exact h
        · cases h
      refine ⟨_, rfl, fun k _ => rfl, ?_⟩
      rw [effects_get_ne _ _ _ (pos_not_opt hp hq _ hg), pos_default hp hq, hvn]
    | star =>
      rw [hk] at hv
      refine ⟨_, rfl, fun k h => ?_, ?_⟩
      · exact Dict.get?_set_ne _ _ (Ne.symm h)
      · rw [Dict.get?_set_self]
        exact congrArg some hv.symm
  · obtain ⟨st2, e2, c2⟩ := pos_step p.opts (gs.foldl GivenOpt.effect p.defaults) q ws hws v hv
    rw [fold st2 e2, parseEnd_of_close c2]
    exact ⟨_, rfl, fun k h => Dict.get?_set_ne _ _ (Ne.symm h), Dict.get?_set_self ..⟩

theorem parse_missing {p : ParserDef} (hp : ParserOk p) {q : PosDef} (hq : p.pos = some q) (hk : (∃ ch, q.kind = .one ch) ∨ q.kind = .plus)
    (gs : List GivenOpt) (hg : ∀ g ∈ gs, g.Fits p.opts) : p.parse (optWords gs) = .error .usage := by
  have ht : tokens p.opts (optWords gs) = .ok (gs.flatMap GivenOpt.toks) := by
    rw [← List.append_nil (optWords gs), tokens_opts hp.opts gs hg, tokens_nil]
    simp [Except.map]
  obtain ⟨st1, e1, c1, -⟩ := given_steps p.opts gs hg ⟨p.defaults, p.pos, [], .idle⟩ _ rfl rfl
  rw [parse_eq ht e1]
  rw [hq] at c1
  rw [parseEnd_of_open c1]
  rcases hk with ⟨ch, hk⟩ | hk <;> rw [hk]

theorem extra_args (opts : List OptDef) (ns : Dict Str ArgVal) (ex : List Str) (ws : List Str) :
    (ws.map Tok.arg).foldlM (parseStep opts) ⟨ns, none, ex, .idle⟩ = .ok ⟨ns, none, ex ++ ws, .idle⟩ := by
  induction ws generalizing ex with
  | nil => simp [pure, Except.pure]
  | cons w ws ih =>
    have := ih (ex ++ [w])
    rw [List.append_assoc] at this
    exact this

theorem parse_scattered {p : ParserDef} (hp : ParserOk p) {q : PosDef} (hq : p.pos = some q) (before middle after : List GivenOpt)
    (hb : ∀ g ∈ before, g.Fits p.opts) (hm : ∀ g ∈ middle, g.Fits p.opts) (ha : ∀ g ∈ after, g.Fits p.opts) (ws ws' : List Str)
    (hw : ∀ w ∈ ws, PlainWord w) (hw' : ∀ w ∈ ws', PlainWord w) (hn : ws ≠ []) (hn' : ws' ≠ []) (v : ArgVal) (hv : PosTells q.kind ws v)
    (ho : ¬ EndsOpen before) (ho' : ¬ EndsOpen middle) (hne : middle ≠ []) :
    p.parse (optWords before ++ ws ++ optWords middle ++ ws' ++ optWords after) = .error .usage := by
  have ht : tokens p.opts (optWords before ++ ws ++ optWords middle ++ ws' ++ optWords after) =
      .ok (before.flatMap GivenOpt.toks ++ (ws.map Tok.arg ++ (middle.flatMap GivenOpt.toks ++ (ws'.map Tok.arg ++ after.flatMap GivenOpt.toks)))) := by
    simp only [List.append_assoc]
    rw [tokens_opts hp.opts before hb, tokens_plain ws _ hw, tokens_opts hp.opts middle hm, tokens_plain ws' _ hw',
      ← List.append_nil (optWords after), tokens_opts hp.opts after ha, tokens_nil]
    simp [Except.map]
  obtain ⟨st1, e1, c1, i1⟩ := given_steps p.opts before hb ⟨p.defaults, p.pos, [], .idle⟩ _ rfl rfl
  have hi := i1 ho (Or.inr rfl)
  rw [hq] at c1
  have hst1 : st1 = ⟨before.foldl GivenOpt.effect p.defaults, some q, [], .idle⟩ := by
    unfold closeMode at c1
    rw [hi] at c1
    simpa using c1
  subst hst1
  obtain ⟨st2, e2, c2⟩ := pos_step p.opts (before.foldl GivenOpt.effect p.defaults) q ws hn v hv
  obtain ⟨st3, e3, c3, i3⟩ := given_steps p.opts middle hm st2 _ c2 rfl
  have hi3 := i3 ho' (Or.inl hne)
  have hst3 : ∃ ns, st3 = ⟨ns, none, [], .idle⟩ := by
    unfold closeMode at c3
    rw [hi3] at c3
    exact ⟨_, by simpa using c3⟩
  obtain ⟨ns3, rfl⟩ := hst3
  have e4 := extra_args p.opts ns3 [] ws'
  rw [List.nil_append] at e4
  obtain ⟨st5, e5, c5, -⟩ := given_steps p.opts after ha ⟨ns3, none, ws', .idle⟩ _ rfl rfl
  rw [parse_eq ht (st := st5) (by
    rw [List.foldlM_append, e1]
    simp only [bind, Except.bind]
    rw [List.foldlM_append, e2]
    simp only [bind, Except.bind]
    rw [List.foldlM_append, e3]
    simp only [bind, Except.bind]
    rw [List.foldlM_append, e4]
    exact e5)]
  unfold parseEnd
  rw [c5]
  simp only [bind, Except.bind]
  rw [if_neg (by simpa using hn')]

/-! ## Kinds of values -/

/-- Kinds of attributes -/
inductive Ty where
  | text | optText | bool | choice (l : List String) | texts | someTexts | langs | optTexts

/-- Values of a kind -/
def Ty.Holds : Ty → ArgVal → Prop
  | .text, v => ∃ s, v = .str s
  | .optText, v => v = .none ∨ ∃ s, v = .str s
  | .bool, v => ∃ b, v = .bool b
  | .choice l, v => ∃ s ∈ l, v = .str s.toList
  | .texts, v => ∃ l, v = .list l
  | .someTexts, v => ∃ s l, v = .list (s :: l)
  | .langs, v => (∃ b, v = .bool b) ∨ ∃ l, v = .list l
  | .optTexts, v => v = .none ∨ ∃ s l, v = .list (s :: l)

/-- Kinds of values, checked -/
def Ty.dflt : Ty → ArgVal → Bool
  | .text, .str _ => true
  | .optText, .none => true
  | .optText, .str _ => true
  | .bool, .bool _ => true
  | .choice l, .str s => l.any fun x => x.toList == s
  | .langs, .bool _ => true
  | .optTexts, .none => true
  | _, _ => false

/-- Options that give values of a kind, checked -/
def Ty.kind : Ty → OptKind → Bool
  | .text, .one _ => true
  | .optText, .one _ => true
  | .optText, .flag (.str _) => true
  | .bool, .flag (.bool _) => true
  | .choice l, .one (some m) => m.all fun s => l.any fun x => x.toList == s
  | .langs, .flag (.bool _) => true
  | .langs, .many => true
  | .optTexts, .append => true
  | _, _ => false

theorem Ty.of_dflt (T : Ty) (v : ArgVal) (h : T.dflt v = true) : T.Holds v := by
  cases T <;> cases v <;> first | (cases h; done) | skip
  · exact ⟨_, rfl⟩
  · exact Or.inl rfl
  · exact Or.inr ⟨_, rfl⟩
  · exact ⟨_, rfl⟩
  · rename_i l s
    simp only [Ty.dflt, List.any_eq_true, beq_iff_eq] at h
    obtain ⟨x, hx, rfl⟩ := h
    exact ⟨x, hx, rfl⟩
  · exact Or.inl ⟨_, rfl⟩
  · exact Or.inl rfl

theorem Ty.of_kind (T : Ty) (argv : List Str) (o : OptDef) (h : T.kind o.kind = true) (v : ArgVal) (hv : CanGive argv o v) : T.Holds v := by
  unfold CanGive at hv
  obtain ⟨names, dest, kind, dflt⟩ := o
  simp only at h hv
  have one : ∀ ch, (match OptKind.one ch with
      | .flag c => v = c
      | .one none => ∃ s, v = .str s ∧ InWords argv s
      | .one (some choices) => ∃ s ∈ choices, v = .str s ∧ InWords argv s
      | .append => ∃ s l, v = .list (s :: l) ∧ ∀ x ∈ s :: l, InWords argv x
      | .many => ∃ l, v = .list l ∧ ∀ x ∈ l, InWords argv x
      | .count => False
      | .help => False) → ∃ s, v = .str s := by
    intro ch h
    cases ch with
    | none => obtain ⟨s, h, -⟩ := h; exact ⟨s, h⟩
    | some l => obtain ⟨s, -, h, -⟩ := h; exact ⟨s, h⟩
  cases T with
  | text =>
    cases kind with
    | one ch => exact one ch hv
    | _ => cases h
  | optText =>
    cases kind with
    | one ch => exact Or.inr (one ch hv)
    | flag c =>
      simp only at hv
      subst hv
      cases v with
      | str s => exact Or.inr ⟨s, rfl⟩
      | _ => cases h
    | _ => cases h
  | bool =>
    cases kind with
    | flag c =>
      simp only at hv
      subst hv
      cases v with
      | bool b => exact ⟨b, rfl⟩
      | _ => cases h
    | _ => cases h
  | choice l =>
    cases kind with
    | one ch =>
      cases ch with
      | none => cases h
      | some m =>
        obtain ⟨s, hs, rfl, -⟩ := hv
        simp only [Ty.kind, List.all_eq_true, List.any_eq_true, beq_iff_eq] at h
        obtain ⟨x, hx, rfl⟩ := h s hs
        exact ⟨x, hx, rfl⟩
    | _ => cases h
  | texts => cases kind <;> cases h
  | someTexts => cases kind <;> cases h
  | langs =>
    cases kind with
    | flag c =>
      simp only at hv
      subst hv
      cases v with
      | bool b => exact Or.inl ⟨b, rfl⟩
      | _ => cases h
    | many =>
      obtain ⟨l, h, -⟩ := hv
      exact Or.inr ⟨l, h⟩
    | _ => cases h
  | optTexts =>
    cases kind with
    | append =>
      obtain ⟨s, l, h, -⟩ := hv
      exact Or.inr ⟨s, l, h⟩
    | _ => cases h

/-- Declarations about an attribute, checked -/
def Ty.check (T : Ty) (p : ParserDef) (k : Str) : Bool :=
  (match p.opts.find? fun o => decide (o.kind ≠ .help ∧ o.dest = k) with
    | some o => T.dflt o.default
    | none => false) &&
  (p.opts.all fun o => o.dest != k || T.kind o.kind) &&
  (match p.pos with
    | some q => q.dest != k
    | none => true)

theorem Ty.of_check (T : Ty) (p : ParserDef) (hp : ParserOk p) (argv : List Str) (k : Str) (h : T.check p k = true) (ns : Dict Str ArgVal) (hn : NsOk p argv ns) :
    ∃ v, ns.get? k = some v ∧ T.Holds v := by
  simp only [Ty.check, Bool.and_eq_true, List.all_eq_true] at h
  obtain ⟨⟨h1, h2⟩, h3⟩ := h
  have h1 : ∃ v, p.defaults.get? k = some v ∧ T.dflt v = true := by
    rw [defaults_get p hp]
    split at h1
    · rename_i o ho
      rw [ho]
      exact ⟨_, rfl, h1⟩
    · cases h1
  obtain ⟨v0, hv0, h1⟩ := h1
  cases hv : ns.get? k with
  | none =>
    rw [(hn.1 k).1 hv] at hv0
    cases hv0
  | some v =>
    refine ⟨v, rfl, ?_⟩
    rcases hn.2 k v hv with hd | ⟨o, ho, hod, hg⟩ | ⟨q, hq, hqd, -⟩
    · rw [hd] at hv0
      cases hv0
      exact T.of_dflt _ h1
    · have := h2 o ho
      simp only [hod, bne_self_eq_false, Bool.false_or] at this
      exact T.of_kind argv o this v hg
    · rw [show p.pos = some q from hq] at h3
      simp [hqd] at h3

section
variable {p : ParserDef} {argv : List Str} {ns : Dict Str ArgVal} (hp : ParserOk p) (hn : NsOk p argv ns)
include hp hn

theorem has_text (k : String) (h : Ty.text.check p k.toList = true) : HasText ns k := by
  obtain ⟨v, hv, s, rfl⟩ := Ty.text.of_check p hp argv _ h ns hn
  exact ⟨s, hv⟩

theorem has_optText (k : String) (h : Ty.optText.check p k.toList = true) : HasOptText ns k := by
  obtain ⟨v, hv, rfl | ⟨s, rfl⟩⟩ := Ty.optText.of_check p hp argv _ h ns hn
  · exact Or.inl hv
  · exact Or.inr ⟨s, hv⟩

theorem has_bool (k : String) (h : Ty.bool.check p k.toList = true) : HasBool ns k := by
  obtain ⟨v, hv, b, rfl⟩ := Ty.bool.of_check p hp argv _ h ns hn
  exact ⟨b, hv⟩

theorem has_choice (k : String) (l : List String) (h : (Ty.choice l).check p k.toList = true) : HasChoice ns k l := by
  obtain ⟨v, hv, s, hs, rfl⟩ := (Ty.choice l).of_check p hp argv _ h ns hn
  exact ⟨s, hs, hv⟩

theorem has_langs (k : String) (h : Ty.langs.check p k.toList = true) : HasBool ns k ∨ HasTexts ns k := by
  obtain ⟨v, hv, ⟨b, rfl⟩ | ⟨l, rfl⟩⟩ := Ty.langs.of_check p hp argv _ h ns hn
  · exact Or.inl ⟨b, hv⟩
  · exact Or.inr ⟨l, hv⟩

theorem has_optTexts (k : String) (h : Ty.optTexts.check p k.toList = true) : ns.get? k.toList = some .none ∨ HasSomeTexts ns k := by
  obtain ⟨v, hv, rfl | ⟨s, l, rfl⟩⟩ := Ty.optTexts.of_check p hp argv _ h ns hn
  · exact Or.inl hv
  · exact Or.inr ⟨s, l, hv⟩

end

end Cdtb
