import Verif.Spec.Args
import Verif.Lemmas.Dict
/-!
# Lemmas on command lines
-/
namespace Cdtb
set_option autoImplicit false
open Py Spec

/-! ## Words -/

theorem classify_plain {opts : List OptDef} {s : Str} (h : PlainWord s) : classify opts s = .ok (.arg s) := by
  unfold classify
  exact if_pos h

theorem plain_ne_sep {s : Str} (h : PlainWord s) : s ≠ "--".toList := by
  rintro rfl
  exact h rfl

/-- Names of options are distinct, and begin with a dash -/
def OptsOk (opts : List OptDef) : Prop :=
  ∀ o ∈ opts, ∀ n ∈ o.names, findOpt opts n = some o ∧ n.head? = some '-' ∧ n ≠ "--".toList

theorem classify_name {opts : List OptDef} (ho : OptsOk opts) {o : OptDef} (hm : o ∈ opts) {n : Str} (hn : n ∈ o.names) :
    classify opts n = .ok (.opt o n false none) := by
  obtain ⟨h1, h2, -⟩ := ho o hm n hn
  unfold classify
  rw [if_neg (by simp [h2]), h1]

theorem tokens_plain {opts : List OptDef} (ws rest : List Str) (h : ∀ w ∈ ws, PlainWord w) :
    tokens opts (ws ++ rest) = (tokens opts rest).map (ws.map Tok.arg ++ ·) := by
  induction ws with
  | nil => cases h' : tokens opts rest <;> simp [h', Except.map]
  | cons w ws ih =>
    simp only [List.cons_append, tokens, if_neg (plain_ne_sep (h w (by simp))), classify_plain (h w (by simp))]
    rw [ih (fun x hx => h x (by simp [hx]))]
    cases h' : tokens opts rest <;> rfl

/-- The words of an option -/
def GivenOpt.toks (g : GivenOpt) : List Tok := .opt g.opt g.name false none :: g.vals.map .arg

theorem tokens_given {opts : List OptDef} (ho : OptsOk opts) {g : GivenOpt} (hg : g.Fits opts) (rest : List Str) :
    tokens opts (g.words ++ rest) = (tokens opts rest).map (GivenOpt.toks g ++ ·) := by
  obtain ⟨hm, hn, hv, -⟩ := hg
  simp only [GivenOpt.words, List.cons_append, tokens, if_neg (ho _ hm _ hn).2.2, classify_name ho hm hn, GivenOpt.toks]
  rw [tokens_plain _ _ hv]
  cases h' : tokens opts rest <;> rfl

theorem tokens_opts {opts : List OptDef} (ho : OptsOk opts) (gs : List GivenOpt) (hg : ∀ g ∈ gs, g.Fits opts) (rest : List Str) :
    tokens opts (optWords gs ++ rest) = (tokens opts rest).map (gs.flatMap GivenOpt.toks ++ ·) := by
  induction gs with
  | nil => cases h' : tokens opts rest <;> simp [optWords, h', Except.map]
  | cons g gs ih =>
    simp only [optWords, List.flatMap_cons, List.append_assoc] at ih ⊢
    rw [tokens_given ho (hg g (by simp)), ih (fun x hx => hg x (by simp [hx]))]
    cases h' : tokens opts rest <;> rfl

/-! ## One option -/

/-- What an option does to attributes -/
def GivenOpt.effect (ns : Dict Str ArgVal) (g : GivenOpt) : Dict Str ArgVal :=
  match g.opt.kind with
  | .flag v => ns.set g.opt.dest v
  | .one _ => ns.set g.opt.dest (.str (g.vals.headD []))
  | .many => ns.set g.opt.dest (.list g.vals)
  | .append => ns.set g.opt.dest (match ns.get? g.opt.dest with
      | some (.list l) => .list (l ++ [g.vals.headD []])
      | _ => .list [g.vals.headD []])
  | _ => ns

theorem many_args (opts : List OptDef) (st : PState) (o : OptDef) (acc ws : List Str) (hm : st.mode = .many o acc) :
    (ws.map Tok.arg).foldlM (parseStep opts) st = .ok { st with mode := .many o (acc ++ ws) } := by
  induction ws generalizing st acc with
  | nil => simp only [List.map_nil, List.foldlM_nil, List.append_nil, ← hm]; rfl
  | cons w ws ih =>
    simp only [List.map_cons, List.foldlM_cons, parseStep, consumeArg, hm]
    have := ih { st with mode := .many o (acc ++ [w]) } (acc ++ [w]) rfl
    simpa [bind, Except.bind] using this

theorem given_step (opts : List OptDef) (st st0 : PState) (hst : closeMode st = .ok st0) (h0 : st0.mode = .idle) (g : GivenOpt) (hg : g.Fits opts) :
    ∃ st1, (GivenOpt.toks g).foldlM (parseStep opts) st = .ok st1 ∧ closeMode st1 = .ok { st0 with ns := GivenOpt.effect st0.ns g } ∧
      (g.opt.kind ≠ .many → st1.mode = .idle) := by
  obtain ⟨hm, hn, hv, hk⟩ := hg
  obtain ⟨⟨names, dest, kind, dflt⟩, name, vals⟩ := g
  obtain ⟨ns, pos, extras, mode⟩ := st0
  simp only at hk h0 hm hn hv
  subst h0
  simp only [GivenOpt.toks, List.foldlM_cons, parseStep, hst, bind, Except.bind, consumeOpt, expandOpt]
  cases kind with
  | flag v =>
    simp only at hk
    subst hk
    exact ⟨_, rfl, rfl, fun _ => rfl⟩
  | count => exact absurd hk (by simp)
  | help => exact absurd hk (by simp)
  | one choices =>
    cases choices with
    | none =>
      obtain ⟨v, rfl⟩ := hk
      exact ⟨_, rfl, rfl, fun _ => rfl⟩
    | some l =>
      obtain ⟨v, hv', rfl⟩ := hk
      refine ⟨{ ns := ns.set dest (.str v), pos := pos, extras := extras, mode := .idle }, ?_, rfl, fun _ => rfl⟩
      simp [OptKind.noArg, List.foldlM_cons, parseStep, consumeArg, storeOne, chosen, hv', bind, Except.bind, pure, Except.pure]
  | append =>
    obtain ⟨v, rfl⟩ := hk
    exact ⟨_, rfl, rfl, fun _ => rfl⟩
  | many =>
    refine ⟨{ ns := ns, pos := pos, extras := extras, mode := .many ⟨names, dest, .many, dflt⟩ vals }, ?_, rfl, fun h => absurd rfl h⟩
    have := many_args opts { ns := ns, pos := pos, extras := extras, mode := .many ⟨names, dest, .many, dflt⟩ [] } _ [] vals rfl
    simpa [OptKind.noArg, pure, Except.pure] using this

theorem given_steps (opts : List OptDef) (gs : List GivenOpt) (hg : ∀ g ∈ gs, g.Fits opts) (st st0 : PState) (hst : closeMode st = .ok st0)
    (h0 : st0.mode = .idle) :
    ∃ st1, (gs.flatMap GivenOpt.toks).foldlM (parseStep opts) st = .ok st1 ∧
      closeMode st1 = .ok { st0 with ns := gs.foldl GivenOpt.effect st0.ns } ∧ (¬ EndsOpen gs → gs ≠ [] ∨ st.mode = .idle → st1.mode = .idle) := by
  induction gs generalizing st st0 with
  | nil => exact ⟨st, rfl, hst, fun _ h => h.elim (fun h => absurd rfl h) id⟩
  | cons g gs ih =>
    obtain ⟨st1, e1, c1, i1⟩ := given_step opts st st0 hst h0 g (hg g (by simp))
    obtain ⟨st2, e2, c2, i2⟩ := ih (fun x hx => hg x (by simp [hx])) st1 _ c1 h0
    refine ⟨st2, ?_, c2, ?_⟩
    · rw [List.flatMap_cons, List.foldlM_append, e1]
      exact e2
    · intro ho _
      by_cases hgs : gs = []
      · subst hgs
        refine i2 (by rintro ⟨x, hx, -⟩; cases hx) (Or.inr (i1 fun hk => ho ⟨g, rfl, hk⟩))
      · refine i2 (fun ⟨x, hx, hk⟩ => ho ⟨x, ?_, hk⟩) (Or.inl hgs)
        rw [List.getLast?_cons, hx]
        rfl

/-! ## Positional arguments -/

theorem pos_args (opts : List OptDef) (st : PState) (p : PosDef) (acc ws : List Str) (hm : st.mode = .pos p acc) :
    (ws.map Tok.arg).foldlM (parseStep opts) st = .ok { st with mode := .pos p (acc ++ ws) } := by
  induction ws generalizing st acc with
  | nil => simp only [List.map_nil, List.foldlM_nil, List.append_nil, ← hm]; rfl
  | cons w ws ih =>
    simp only [List.map_cons, List.foldlM_cons, parseStep, consumeArg, hm]
    have := ih { st with mode := .pos p (acc ++ [w]) } (acc ++ [w]) rfl
    simpa [bind, Except.bind] using this

theorem pos_step (opts : List OptDef) (ns : Dict Str ArgVal) (p : PosDef) (ws : List Str) (hw : ws ≠ []) (v : ArgVal) (hv : PosTells p.kind ws v) :
    ∃ st1, (ws.map Tok.arg).foldlM (parseStep opts) ⟨ns, some p, [], .idle⟩ = .ok st1 ∧ closeMode st1 = .ok ⟨ns.set p.dest v, none, [], .idle⟩ := by
  obtain ⟨dest, kind⟩ := p
  cases ws with
  | nil => exact absurd rfl hw
  | cons w ws =>
    simp only [List.map_cons, List.foldlM_cons, parseStep, consumeArg]
    cases kind with
    | one choices =>
      cases choices with
      | none =>
        obtain ⟨s, hs, rfl⟩ := hv
        obtain ⟨rfl, rfl⟩ := List.cons.inj hs
        exact ⟨_, rfl, rfl⟩
      | some l =>
        obtain ⟨s, hl, hs, rfl⟩ := hv
        obtain ⟨rfl, rfl⟩ := List.cons.inj hs
        refine ⟨⟨ns.set dest (.str w), none, [], .after⟩, ?_, rfl⟩
        simp [chosen, hl, bind, Except.bind, pure, Except.pure]
    | opt =>
      rcases hv with ⟨h, -⟩ | ⟨s, hs, rfl⟩
      · cases h
      obtain ⟨rfl, rfl⟩ := List.cons.inj hs
      exact ⟨_, rfl, rfl⟩
    | star =>
      simp only [PosTells] at hv
      subst hv
      refine ⟨⟨ns, none, [], .pos ⟨dest, .star⟩ (w :: ws)⟩, ?_, rfl⟩
      have := pos_args opts ⟨ns, none, [], .pos ⟨dest, .star⟩ [w]⟩ _ [w] ws rfl
      simpa [bind, Except.bind] using this
    | plus =>
      obtain ⟨-, rfl⟩ := hv
      refine ⟨⟨ns, none, [], .pos ⟨dest, .plus⟩ (w :: ws)⟩, ?_, rfl⟩
      have := pos_args opts ⟨ns, none, [], .pos ⟨dest, .plus⟩ [w]⟩ _ [w] ws rfl
      simpa [bind, Except.bind] using this

theorem parseEnd_of_close {st : PState} {ns : Dict Str ArgVal} (h : closeMode st = .ok ⟨ns, none, [], .idle⟩) : parseEnd st = .ok ns := by
  unfold parseEnd
  rw [h]
  rfl

theorem parseEnd_of_open {st : PState} {ns : Dict Str ArgVal} {p : PosDef} (h : closeMode st = .ok ⟨ns, some p, [], .idle⟩) :
    parseEnd st = match p.kind with
      | .one _ | .plus => .error .usage
      | .opt => .ok ns
      | .star => .ok (ns.set p.dest (.list [])) := by
  unfold parseEnd
  rw [h]
  obtain ⟨dest, kind⟩ := p
  cases kind <;> rfl

/-! ## Attributes -/

theorem effect_get_ne (ns : Dict Str ArgVal) (g : GivenOpt) (k : Str) (h : g.opt.dest ≠ k) : (GivenOpt.effect ns g).get? k = ns.get? k := by
  unfold GivenOpt.effect
  split <;> first | rfl | exact Dict.get?_set_ne _ _ (Ne.symm h)

theorem effects_get_ne (gs : List GivenOpt) (ns : Dict Str ArgVal) (k : Str) (h : ∀ g ∈ gs, g.opt.dest ≠ k) :
    (gs.foldl GivenOpt.effect ns).get? k = ns.get? k := by
  induction gs generalizing ns with
  | nil => rfl
  | cons g gs ih =>
    rw [List.foldl_cons, ih _ (fun x hx => h x (by simp [hx])), effect_get_ne _ _ _ (h g (by simp))]

theorem effect_says (opts : List OptDef) (ns : Dict Str ArgVal) (g : GivenOpt) (hg : g.Fits opts) (hk : g.opt.kind ≠ .append) :
    ∃ v, g.Says v ∧ (GivenOpt.effect ns g).get? g.opt.dest = some v := by
  obtain ⟨hm, hn, hv, h⟩ := hg
  obtain ⟨⟨names, dest, kind, dflt⟩, name, vals⟩ := g
  simp only at h hk
  unfold GivenOpt.effect GivenOpt.Says
  cases kind with
  | flag v => exact ⟨v, rfl, Dict.get?_set_self ..⟩
  | count => exact absurd h (by simp)
  | help => exact absurd h (by simp)
  | one choices =>
    have : ∃ v, vals = [v] := by
      cases choices with
      | none => exact h
      | some l => obtain ⟨v, -, hv⟩ := h; exact ⟨v, hv⟩
    obtain ⟨v, rfl⟩ := this
    exact ⟨.str v, ⟨v, rfl, rfl⟩, Dict.get?_set_self ..⟩
  | append => exact absurd rfl hk
  | many => exact ⟨.list vals, rfl, Dict.get?_set_self ..⟩

theorem effects_append (opts : List OptDef) (gs : List GivenOpt) (hg : ∀ g ∈ gs, g.Fits opts) (ns : Dict Str ArgVal) (k : Str)
    (hk : ∀ g ∈ gs, g.opt.dest = k → g.opt.kind = .append) (l : List Str) (hl : ns.get? k = some (.list l)) :
    (gs.foldl GivenOpt.effect ns).get? k = some (.list (l ++ (gs.filter fun g => g.opt.dest = k).flatMap GivenOpt.vals)) := by
  induction gs generalizing ns l with
  | nil => simpa using hl
  | cons g gs ih =>
    have ih' := ih (fun x hx => hg x (by simp [hx])) (GivenOpt.effect ns g) (fun x hx => hk x (by simp [hx]))
    by_cases hd : g.opt.dest = k
    · have ha := hk g (by simp) hd
      obtain ⟨-, -, -, hf⟩ := hg g (by simp)
      rw [ha] at hf
      obtain ⟨v, hv⟩ := hf
      have he : (GivenOpt.effect ns g).get? k = some (.list (l ++ [v])) := by
        unfold GivenOpt.effect
        rw [ha]
        simp only [hd, hl, hv]
        exact Dict.get?_set_self ..
      rw [List.foldl_cons, ih' _ he]
      simp [hd, hv]
    · rw [List.foldl_cons, ih' l (by rw [effect_get_ne _ _ _ hd, hl])]
      simp [hd]

theorem last_about (gs : List GivenOpt) (k : Str) (h : ∃ x ∈ gs, x.opt.dest = k) :
    ∃ a g b, gs = a ++ g :: b ∧ g.opt.dest = k ∧ ∀ x ∈ b, x.opt.dest ≠ k := by
  induction gs with
  | nil => obtain ⟨x, hx, -⟩ := h; cases hx
  | cons y gs ih =>
    by_cases hex : ∃ x ∈ gs, x.opt.dest = k
    · obtain ⟨a, z, b, rfl, h1, h2⟩ := ih hex
      exact ⟨y :: a, z, b, rfl, h1, h2⟩
    · push Not at hex
      obtain ⟨x, hx, hxk⟩ := h
      rcases List.mem_cons.1 hx with rfl | hx
      · exact ⟨[], x, gs, rfl, hxk, hex⟩
      · exact absurd hxk (hex x hx)

/-- Options about an attribute are repeated ones, or none is -/
def Uniform (opts : List OptDef) : Prop := ∀ o ∈ opts, ∀ o' ∈ opts, o.dest = o'.dest → o.kind = .append → o'.kind = .append ∧ o.default = .none

theorem effects_tell (opts : List OptDef) (hu : Uniform opts) (gs : List GivenOpt) (hg : ∀ g ∈ gs, g.Fits opts) (ns : Dict Str ArgVal) (k : Str)
    (d : ArgVal) (hd : ns.get? k = some d) (hd' : ∀ o ∈ opts, o.dest = k → o.kind = .append → d = .none) :
    ∃ v, (gs.foldl GivenOpt.effect ns).get? k = some v ∧ Tells gs k d v := by
  by_cases h : ∀ g ∈ gs, g.opt.dest ≠ k
  · exact ⟨d, by rw [effects_get_ne _ _ _ h, hd], .default h⟩
  push Not at h
  obtain ⟨g0, hg0, hk0⟩ := h
  by_cases ha : g0.opt.kind = .append
  · have hall : ∀ g ∈ gs, g.opt.dest = k → g.opt.kind = .append := fun g hm hk =>
      (hu _ (hg _ hg0).1 _ (hg _ hm).1 (hk0.trans hk.symm) ha).1
    refine ⟨_, ?_, .all ⟨g0, hg0, hk0⟩ hall⟩
    have hdn := hd' _ (hg _ hg0).1 hk0 ha
    subst hdn
    have he : ∃ g ∈ gs, g.opt.dest = k := ⟨g0, hg0, hk0⟩
    clear hg0 hk0 ha g0
    -- before the first one the attribute is `None`
    have key : ∀ (gs : List GivenOpt) (ns : Dict Str ArgVal), (∀ g ∈ gs, g.Fits opts) → (∀ g ∈ gs, g.opt.dest = k → g.opt.kind = .append) →
        (∃ g ∈ gs, g.opt.dest = k) → ns.get? k = some .none →
        (gs.foldl GivenOpt.effect ns).get? k = some (.list ((gs.filter fun g => g.opt.dest = k).flatMap GivenOpt.vals)) := by
      intro gs
      induction gs with
      | nil => rintro ns - - ⟨g, hg, -⟩; cases hg
      | cons g gs ih =>
        intro ns hg hk he hn
        by_cases hd : g.opt.dest = k
        · have ha := hk g (by simp) hd
          obtain ⟨-, -, -, hf⟩ := hg g (by simp)
          rw [ha] at hf
          obtain ⟨v, hv⟩ := hf
          have he : (GivenOpt.effect ns g).get? k = some (.list [v]) := by
            unfold GivenOpt.effect
            rw [ha]
            simp only [hd, hn, hv]
            exact Dict.get?_set_self ..
          rw [List.foldl_cons, effects_append opts gs (fun x hx => hg x (by simp [hx])) _ k (fun x hx => hk x (by simp [hx])) _ he]
          simp [hd, hv]
        · obtain ⟨x, hx, hxk⟩ := he
          rw [List.foldl_cons, ih _ (fun x hx => hg x (by simp [hx])) (fun x hx => hk x (by simp [hx])) ⟨x, ?_, hxk⟩
            (by rw [effect_get_ne _ _ _ hd, hn])]
          · simp [hd]
          · rcases List.mem_cons.1 hx with rfl | hx
            · exact absurd hxk hd
            · exact hx
    exact key gs ns hg hall he hd
  · -- the last one
    have : ∃ a g b, gs = a ++ g :: b ∧ g.opt.dest = k ∧ ∀ x ∈ b, x.opt.dest ≠ k := by
      exact last_about gs k ⟨g0, hg0, hk0⟩
    obtain ⟨a, g, b, rfl, hgk, hb⟩ := this
    have hna : g.opt.kind ≠ .append := fun h => ha (hu _ (hg g (by simp)).1 _ (hg _ hg0).1 (hgk.trans hk0.symm) h).1
    obtain ⟨v, hs, hv⟩ := effect_says opts (a.foldl GivenOpt.effect ns) g (hg g (by simp)) hna
    refine ⟨v, ?_, .last a g b v rfl hgk hb hs⟩
    rw [List.foldl_append, List.foldl_cons, effects_get_ne _ _ _ hb, ← hgk, hv]

end Cdtb
