import Verif.Lemmas.ArgsMain
import Verif.Lemmas.Str
/-!
# Lemmas on command lines: spellings of options
-/
namespace Cdtb
set_option autoImplicit false
open Py Spec

/-! ## Names of options -/

/-- A letter after a dash, or a name after two dashes -/
def OptNameOk (n : Str) : Prop := (∃ x, n = ['-', x] ∧ x ≠ '-' ∧ x ≠ '=') ∨ ("--".toList <+: n ∧ '=' ∉ n ∧ n ≠ "--".toList)

/-- The same, computed -/
def optNameCheck (n : Str) : Bool :=
  match n with
  | ['-', x] => x != '-' && x != '='
  | '-' :: '-' :: r => !r.contains '='
  | _ => false

theorem optNameOk_of_check {n : Str} (h : optNameCheck n = true) : OptNameOk n := by
  unfold optNameCheck at h
  split at h
  · rename_i x
    simp only [Bool.and_eq_true, bne_iff_ne] at h
    exact .inl ⟨x, rfl, h.1, h.2⟩
  · rename_i r hr
    simp only [Bool.not_eq_true', List.contains_eq_mem, decide_eq_false_iff_not] at h
    exact .inr ⟨⟨r, rfl⟩, by simpa using h, by rintro e; simp at e; exact hr e⟩
  · cases h

/-- Names of a parser: distinct, and of the usual form -/
structure OptNamesOk (opts : List OptDef) : Prop where
  nodup : (opts.flatMap OptDef.names).Nodup
  form : ∀ o ∈ opts, ∀ n ∈ o.names, OptNameOk n

theorem commandParsers_names (dir : Option Str) : ∀ x ∈ commandParsers dir, OptNamesOk x.2.opts := by
  intro x hx
  have : ((commandParsers dir).all fun x => decide ((x.2.opts.flatMap OptDef.names).Nodup) && x.2.opts.all fun o => o.names.all optNameCheck) = true := by rfl
  have := List.all_eq_true.1 this x hx
  simp only [Bool.and_eq_true, decide_eq_true_eq, List.all_eq_true] at this
  exact ⟨this.1, fun o ho n hn => optNameOk_of_check (this.2 o ho n hn)⟩

theorem findOpt_iff {opts : List OptDef} (h : OptNamesOk opts) (n : Str) (o : OptDef) : findOpt opts n = some o ↔ o ∈ opts ∧ n ∈ o.names := by
  constructor
  · intro hf
    exact ⟨findOpt_mem hf, by simpa using List.find?_some hf⟩
  · intro ⟨ho, hn⟩
    exact findOpt_of_nodup h.nodup ho hn

theorem findOpt_none {opts : List OptDef} (h : OptNamesOk opts) (n : Str) (hn : ¬ OptNameOk n) : findOpt opts n = none := by
  cases hf : findOpt opts n with
  | none => rfl
  | some o =>
    obtain ⟨ho, hm⟩ := (findOpt_iff h n o).1 hf
    exact absurd (h.form o ho n hm) hn

theorem optStrings_fst (opts : List OptDef) : (optStrings opts).map Prod.fst = opts.flatMap OptDef.names := by
  unfold optStrings
  rw [List.map_flatMap]
  congr 1
  funext o
  simp [List.map_map, Function.comp_def]

theorem optStrings_iff (opts : List OptDef) (n : Str) (o : OptDef) : (n, o) ∈ optStrings opts ↔ o ∈ opts ∧ n ∈ o.names := by
  unfold optStrings
  simp only [List.mem_flatMap, List.mem_map, Prod.mk.injEq]
  constructor
  · rintro ⟨o', ho, n', hn, rfl, rfl⟩
    exact ⟨ho, hn⟩
  · intro ⟨ho, hn⟩
    exact ⟨o, ho, n, hn, rfl, rfl⟩

theorem filterMap_single {α β γ : Type} (f : α × β → Option γ) (l : List (α × β)) (hl : (l.map Prod.fst).Nodup) (n : α) (o : β) (t : γ)
    (hm : (n, o) ∈ l) (hf : f (n, o) = some t) (hn : ∀ x ∈ l, x.1 ≠ n → f x = none) : l.filterMap f = [t] := by
  induction l with
  | nil => cases hm
  | cons x l ih =>
    simp only [List.map_cons, List.nodup_cons] at hl
    rcases List.mem_cons.1 hm with rfl | hm
    · rw [List.filterMap_cons, hf]
      have : l.filterMap f = [] := by
        rw [List.filterMap_eq_nil_iff]
        intro y hy
        exact hn y (by simp [hy]) (fun e => hl.1 (List.mem_map.2 ⟨y, hy, e⟩))
      rw [this]
    · have hx : x.1 ≠ n := fun e => hl.1 (List.mem_map.2 ⟨_, hm, e.symm⟩)
      rw [List.filterMap_cons, hn x (by simp) hx]
      exact ih hl.2 hm (fun y hy => hn y (by simp [hy]))

/-! ## Words -/

/-- `--name=value` -/
theorem classify_long {opts : List OptDef} (h : OptNamesOk opts) {o : OptDef} (ho : o ∈ opts) {n : Str} (hn : n ∈ o.names) (v : Str) :
    classify opts (n ++ '=' :: v) = .ok (.opt o n true (some v)) := by
  have hform := h.form o ho n hn
  have heq : '=' ∉ n := by
    rcases hform with ⟨x, rfl, h1, h2⟩ | h
    · simp [Ne.symm h2]
    · exact h.2.1
  have hhead : ∃ c r, n = '-' :: c :: r := by
    rcases hform with ⟨x, rfl, h1, h2⟩ | ⟨⟨r, rfl⟩, -⟩
    · exact ⟨x, [], rfl⟩
    · exact ⟨'-', r, rfl⟩
  have hno : findOpt opts (n ++ '=' :: v) = none := by
    apply findOpt_none h
    obtain ⟨c, r, rfl⟩ := hhead
    rintro (⟨x, hx, -, -⟩ | hx)
    · simp at hx
    · exact hx.2.1 (by simp)
  have hsp : split1 '=' (n ++ '=' :: v) = some (n, v) := split1_eq_some.2 ⟨rfl, heq⟩
  unfold classify
  obtain ⟨c, r, rfl⟩ := hhead
  rw [if_neg (by simp), hno]
  simp only
  rw [if_neg (by simp), hsp]
  simp [(findOpt_iff h _ o).2 ⟨ho, hn⟩]

/-- `-xvalue` -/
theorem classify_letter {opts : List OptDef} (h : OptNamesOk opts) {o : OptDef} (ho : o ∈ opts) {x : Char} (hn : ['-', x] ∈ o.names) (c : Char) (v : Str)
    (hc : c ≠ '=') : classify opts ('-' :: x :: c :: v) = .ok (.opt o ['-', x] false (some (c :: v))) := by
  have hx : x ≠ '-' := by
    rcases h.form o ho _ hn with ⟨y, hy, h1, -⟩ | ⟨⟨r, hr⟩, he⟩
    · simp only [List.cons.injEq, and_true, true_and] at hy; exact hy ▸ h1
    · exfalso
      simp at hr
      exact he.2 (by simp [← hr.1])
  have hbad : ∀ r, ¬ OptNameOk ('-' :: x :: c :: r) := by
    rintro r (⟨y, hy, -, -⟩ | ⟨⟨s, hs⟩, -⟩)
    · simp at hy
    · simp at hs; exact hx hs.1.symm
  have hxe : x ≠ '=' := by
    rcases h.form o ho _ hn with ⟨y, hy, -, h1⟩ | ⟨-, he⟩
    · simp only [List.cons.injEq, and_true, true_and] at hy; exact hy ▸ h1
    · intro e; exact he.1 (by simp [e])
  have hsp : ((split1 '=' ('-' :: x :: c :: v)).bind fun (a, b) => (findOpt opts a).map fun o => (o, a, b)) = none := by
    cases hs : split1 '=' ('-' :: x :: c :: v) with
    | none => rfl
    | some ab =>
      obtain ⟨a, b⟩ := ab
      have := split1_eq_some.1 hs
      have ha : ∃ r, a = '-' :: x :: c :: r := by
        obtain ⟨h1, h2⟩ := this
        match a, h1 with
        | [], h1 => simp at h1
        | [d], h1 => simp at h1; exact absurd h1.2.1 hxe
        | [d, e], h1 => simp at h1; exact absurd h1.2.2.1 hc
        | d :: e :: f :: r, h1 =>
          simp at h1
          obtain ⟨rfl, rfl, rfl, -⟩ := h1
          exact ⟨r, rfl⟩
      obtain ⟨r, rfl⟩ := ha
      simp [findOpt_none h _ (hbad r)]
  have htup : optTuples opts ('-' :: x :: c :: v) = [.opt o ['-', x] false (some (c :: v))] := by
    unfold optTuples
    rw [if_neg (by simp [List.isPrefixOf, Ne.symm hx])]
    refine filterMap_single _ _ (by rw [optStrings_fst]; exact h.nodup) ['-', x] o _ ((optStrings_iff _ _ _).2 ⟨ho, hn⟩) (by simp) ?_
    rintro ⟨n, o'⟩ hm hne
    have hne' : n ≠ ['-', x] := hne
    obtain ⟨ho', hn'⟩ := (optStrings_iff _ _ _).1 hm
    simp only [List.take_succ_cons, List.take_zero, if_neg hne']
    rw [if_neg]
    intro hp
    obtain ⟨r, hr⟩ := List.isPrefixOf_iff_prefix.1 hp
    exact hbad (v ++ r) (by have := h.form o' ho' n hn'; rw [← hr] at this; simpa using this)
  unfold classify
  rw [if_neg (by simp), findOpt_none h _ (hbad v)]
  simp only
  rw [if_neg (by simp), hsp, htup]

theorem long_parts (u : Str) (hu : '=' ∉ u) (v : Option Str) : longParts (u ++ (v.elim [] fun v => '=' :: v)) = (u, v) := by
  cases v with
  | none => simp [longParts, split1_eq_none.2 hu]
  | some v => simp [longParts, split1_eq_some.2 ⟨rfl, hu⟩]

/-- Abbreviations, with an argument or not -/
theorem classify_abbrev {opts : List OptDef} (h : OptNamesOk opts) {u : Str} (hu : "--".toList <+: u) (he : '=' ∉ u)
    (hn : ∀ o ∈ opts, u ∉ o.names) (v : Option Str) :
    classify opts (u ++ (v.elim [] fun v => '=' :: v)) =
      match ((optStrings opts).filter fun x => u.isPrefixOf x.1).map fun x => Tok.opt x.2 x.1 v.isSome v with
      | [t] => .ok t
      | _ :: _ :: _ => .error .usage
      | [] => if (u ++ (v.elim [] fun v => '=' :: v)).contains ' ' then .ok (.arg (u ++ (v.elim [] fun v => '=' :: v)))
          else .ok (.unknown (u ++ (v.elim [] fun v => '=' :: v))) := by
  have hfu : findOpt opts u = none := by
    cases hf : findOpt opts u with
    | none => rfl
    | some o => exact absurd ((findOpt_iff h u o).1 hf).2 (hn o ((findOpt_iff h u o).1 hf).1)
  have hf : findOpt opts (u ++ (v.elim [] fun v => '=' :: v)) = none := by
    cases v with
    | none => simpa using hfu
    | some v =>
      apply findOpt_none h
      rintro (⟨x, hx, -, -⟩ | hx)
      · obtain ⟨r, rfl⟩ := hu
        simp at hx
      · exact hx.2.1 (by simp)
  have hsp : ((split1 '=' (u ++ (v.elim [] fun v => '=' :: v))).bind fun (a, b) => (findOpt opts a).map fun o => (o, a, b)) = none := by
    cases v with
    | none => simp [split1_eq_none.2 he]
    | some v => simp [split1_eq_some.2 ⟨rfl, he⟩, hfu]
  have htup : optTuples opts (u ++ (v.elim [] fun v => '=' :: v)) =
      ((optStrings opts).filter fun x => u.isPrefixOf x.1).map fun x => Tok.opt x.2 x.1 v.isSome v := by
    unfold optTuples
    rw [if_pos (List.isPrefixOf_iff_prefix.2 (hu.trans (List.prefix_append _ _))), long_parts u he v]
  have hneg : looksNegative (u ++ (v.elim [] fun v => '=' :: v)) = false := by
    obtain ⟨r, rfl⟩ := hu
    have : split1 '.' ('-' :: (r ++ (v.elim [] fun v => '=' :: v))) = none ∨
        ∃ a b, split1 '.' ('-' :: (r ++ (v.elim [] fun v => '=' :: v))) = some ('-' :: a, b) := by
      unfold split1
      rw [if_neg (by decide)]
      cases split1 '.' (r ++ (v.elim [] fun v => '=' :: v)) with
      | none => exact .inl rfl
      | some x => exact .inr ⟨x.1, x.2, rfl⟩
    have hd : isDigit '-' = false := by decide
    rcases this with this | ⟨a, b, this⟩ <;> simp [looksNegative, this, hd]
  generalize hw : u ++ (v.elim [] fun v => '=' :: v) = w at *
  have w1 : ¬ w.head? ≠ some '-' := by
    obtain ⟨r, rfl⟩ := hu
    simp [← hw]
  have w2 : w.length ≠ 1 := by
    obtain ⟨r, rfl⟩ := hu
    simp [← hw]
  clear hw
  unfold classify
  rw [if_neg w1, hf]
  simp only
  rw [if_neg w2, hsp, htup, hneg]
  generalize (List.map (fun x => Tok.opt x.2 x.1 v.isSome v) (List.filter (fun x => u.isPrefixOf x.1) (optStrings opts))) = l
  match l with
  | [] => simp
  | [_] => rfl
  | _ :: _ :: _ => rfl

theorem tokens_before {opts : List OptDef} (a r : List Str) (ha : "--".toList ∉ a) :
    tokens opts (a ++ r) = (tokens opts a).bind fun ta => (tokens opts r).map (ta ++ ·) := by
  induction a with
  | nil => cases h : tokens opts r <;> simp [tokens, h, Except.map, Except.bind]
  | cons x a ih =>
    have hx : x ≠ "--".toList := fun e => ha (by simp [e])
    simp only [List.cons_append, tokens, if_neg hx]
    rw [ih (fun hm => ha (List.mem_cons_of_mem _ hm))]
    cases classify opts x with
    | error e => rfl
    | ok t =>
      cases tokens opts a with
      | error e => rfl
      | ok ta => cases tokens opts r <;> rfl

/-- Words that have the same effect can be exchanged -/
theorem parse_swap {p : ParserDef} (a b r1 r2 : List Str) (ha : "--".toList ∉ a) (l1 l2 : List Tok)
    (h1 : tokens p.opts (r1 ++ b) = (tokens p.opts b).map (l1 ++ ·)) (h2 : tokens p.opts (r2 ++ b) = (tokens p.opts b).map (l2 ++ ·))
    (h : ∀ st ts, ((l1 ++ ts).foldlM (parseStep p.opts) st).bind parseEnd = ((l2 ++ ts).foldlM (parseStep p.opts) st).bind parseEnd) :
    p.parse (a ++ (r1 ++ b)) = p.parse (a ++ (r2 ++ b)) := by
  unfold ParserDef.parse
  rw [tokens_before a _ ha, tokens_before a _ ha, h1, h2]
  cases tokens p.opts a with
  | error e => rfl
  | ok ta =>
    cases tokens p.opts b with
    | error e => rfl
    | ok tb =>
      simp only [Except.bind, Except.map, bind]
      rw [List.foldlM_append, List.foldlM_append]
      cases ta.foldlM (parseStep p.opts) ⟨p.defaults, p.pos, [], .idle⟩ with
      | error e => rfl
      | ok st => exact h st tb

theorem closeMode_idle {st st' : PState} (h : closeMode st = .ok st') : st'.mode = .idle := by
  unfold closeMode at h
  split at h
  · cases h
  all_goals cases h
  · rfl
  · rfl
  · assumption
  · rfl

/-- An option with its argument in the same word or in the next one -/
theorem step_attached (opts : List OptDef) (o : OptDef) (hk : (∃ c, o.kind = .one c) ∨ o.kind = .append) (n n' : Str) (e : Bool) (v : Str) (st : PState) :
    parseStep opts st (.opt o n e (some v)) = (parseStep opts st (.opt o n' false none)).bind fun st => parseStep opts st (.arg v) := by
  have h1 : o.kind.noArg = false := by rcases hk with ⟨c, hk⟩ | hk <;> rw [hk] <;> rfl
  have h2 : o.kind ≠ .many := by rcases hk with ⟨c, hk⟩ | hk <;> rw [hk] <;> simp
  simp only [parseStep]
  cases hc : closeMode st with
  | error e => rfl
  | ok st0 =>
    have h0 := closeMode_idle hc
    simp only [bind, Except.bind, consumeOpt, expandOpt, h1, Bool.not_false, if_true, if_neg h2, consumeArg, List.foldlM_nil, pure, Except.pure, Bool.false_eq_true, if_false]
    cases storeOne st0.ns o v with
    | error e => rfl
    | ok ns => simp [h0]

end Cdtb
