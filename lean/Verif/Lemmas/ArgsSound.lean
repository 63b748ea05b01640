import Verif.Lemmas.Args
/-!
# Lemmas on command lines: what can be in parsed arguments
-/
namespace Cdtb
set_option autoImplicit false
open Py Spec

/-! ## Words -/

theorem split1_suffix {c : Char} {s a b : Str} (h : split1 c s = some (a, b)) : b <:+ s := by
  induction s generalizing a b with
  | nil => cases h
  | cons x s ih =>
    simp only [split1] at h
    split at h
    · cases h
      exact List.suffix_cons _ _
    · split at h
      · rename_i a' b' h'
        cases h
        exact (ih h').trans (List.suffix_cons _ _)
      · cases h

theorem split1_prefix {c : Char} {s a b : Str} (h : split1 c s = some (a, b)) : s = a ++ c :: b := by
  induction s generalizing a b with
  | nil => cases h
  | cons x s ih =>
    simp only [split1] at h
    split at h
    · rename_i hx
      cases h
      rw [hx]
      rfl
    · split at h
      · rename_i a' b' h'
        cases h
        rw [ih h']
        rfl
      · cases h

theorem findOpt_mem {opts : List OptDef} {n : Str} {o : OptDef} (h : findOpt opts n = some o) : o ∈ opts := List.mem_of_find?_eq_some h

theorem optStrings_mem {opts : List OptDef} {x : Str × OptDef} (h : x ∈ optStrings opts) : x.2 ∈ opts ∧ x.1 ∈ x.2.names := by
  unfold optStrings at h
  obtain ⟨o, ho, hx⟩ := List.mem_flatMap.1 h
  obtain ⟨n, hn, rfl⟩ := List.mem_map.1 hx
  exact ⟨ho, hn⟩

/-- What a word gives is in it -/
def TokIn (opts : List OptDef) (argv : List Str) : Tok → Prop
  | .arg s => s ∈ argv
  | .opt o _ _ a => o ∈ opts ∧ ∀ s ∈ a, InWords argv s
  | _ => True

theorem optTuples_in {opts : List OptDef} {argv : List Str} {s : Str} (hs : s ∈ argv) : ∀ t ∈ optTuples opts s, TokIn opts argv t := by
  intro t ht
  unfold optTuples at ht
  split at ht
  · obtain ⟨x, hx, rfl⟩ := List.mem_map.1 ht
    have hx' := optStrings_mem (List.mem_filter.1 hx).1
    refine ⟨hx'.1, ?_⟩
    intro v hv
    simp only [longParts] at hv
    split at hv
    · rename_i a b hab
      cases hv
      exact ⟨s, hs, split1_suffix hab⟩
    · cases hv
  · obtain ⟨x, hx, hx2⟩ := List.mem_filterMap.1 ht
    have hx' := optStrings_mem hx
    split at hx2
    · cases hx2
      refine ⟨hx'.1, fun v hv => ?_⟩
      cases hv
      exact ⟨s, hs, List.drop_suffix _ _⟩
    · split at hx2
      · cases hx2
        exact ⟨hx'.1, fun v hv => by cases hv⟩
      · cases hx2

theorem classify_in {opts : List OptDef} {argv : List Str} {s : Str} (hs : s ∈ argv) {t : Tok} (h : classify opts s = .ok t) : TokIn opts argv t := by
  unfold classify at h
  split at h
  · cases h; exact hs
  split at h
  · rename_i o ho
    cases h
    exact ⟨findOpt_mem ho, fun v hv => by cases hv⟩
  split at h
  · cases h; exact hs
  split at h
  · rename_i o a b hab
    cases h
    rw [Option.bind_eq_some_iff] at hab
    obtain ⟨⟨a', b'⟩, h1, h2⟩ := hab
    simp only [Option.map_eq_some_iff] at h2
    obtain ⟨o', ho', he⟩ := h2
    cases he
    refine ⟨findOpt_mem ho', fun v hv => ?_⟩
    cases hv
    exact ⟨s, hs, split1_suffix h1⟩
  have ht := optTuples_in (opts := opts) (argv := argv) hs
  split at h
  · rename_i t' he
    cases h
    exact ht _ (by rw [he]; simp)
  · cases h
  · split at h
    · cases h; exact hs
    · cases h; trivial

theorem tokens_in {opts : List OptDef} (argv rest : List Str) (hr : ∀ w ∈ rest, w ∈ argv) {ts : List Tok} (h : tokens opts rest = .ok ts) :
    ∀ t ∈ ts, TokIn opts argv t := by
  induction rest generalizing ts with
  | nil => cases h; simp
  | cons s l ih =>
    simp only [tokens] at h
    split at h
    · cases h
      intro t ht
      rcases List.mem_cons.1 ht with rfl | ht
      · trivial
      · obtain ⟨w, hw, rfl⟩ := List.mem_map.1 ht
        exact hr w (by simp [hw])
    · cases h1 : classify opts s with
      | error e => rw [h1] at h; cases h
      | ok t0 =>
        cases h2 : tokens opts l with
        | error e => rw [h1, h2] at h; cases h
        | ok ts0 =>
          rw [h1, h2] at h
          cases h
          intro t ht
          rcases List.mem_cons.1 ht with rfl | ht
          · exact classify_in (hr s (by simp)) h1
          · exact ih (fun w hw => hr w (by simp [hw])) h2 t ht

/-! ## Letters -/

theorem inWords_suffix {argv : List Str} {s t : Str} (h : InWords argv t) (hs : s <:+ t) : InWords argv s := by
  obtain ⟨w, hw, hw'⟩ := h
  exact ⟨w, hw, hs.trans hw'⟩

/-- The last option of a word is declared, its argument is in the word -/
def LastIn (opts : List OptDef) (argv : List Str) : LastOpt → Prop
  | .opt o a => o ∈ opts ∧ ∀ s ∈ a, InWords argv s
  | .extra _ => True

theorem cluster_in {opts : List OptDef} {argv : List Str} {o : OptDef} (ho : o ∈ opts) {s : Str} (hs : InWords argv s) {r : List OptDef × LastOpt}
    (h : cluster opts o s = .ok r) : (∀ x ∈ r.1, x ∈ opts) ∧ LastIn opts argv r.2 := by
  induction s generalizing o r with
  | nil => cases h
  | cons c rest ih =>
    have hrest := inWords_suffix hs (List.suffix_cons c rest)
    simp only [cluster] at h
    split at h
    · cases h
    split at h
    · cases h
      exact ⟨by simpa using ho, trivial⟩
    · rename_i o' ho'
      have hm := findOpt_mem ho'
      split at h
      · cases h
        exact ⟨by simpa using ho, hm, fun s hs => by cases hs⟩
      split at h
      · split at h
        · cases h
        · cases h
          refine ⟨by simpa using ho, hm, fun s hs => ?_⟩
          cases hs
          exact inWords_suffix hrest (List.tail_suffix _)
      split at h
      · cases h1 : cluster opts o' rest with
        | error e => rw [h1] at h; cases h
        | ok r' =>
          rw [h1] at h
          cases h
          obtain ⟨h2, h3⟩ := ih hm hrest h1
          refine ⟨fun x hx => ?_, h3⟩
          rcases List.mem_cons.1 hx with rfl | hx
          · exact ho
          · exact h2 x hx
      · cases h
        refine ⟨by simpa using ho, hm, fun s hs => ?_⟩
        cases hs
        exact hrest

theorem expandOpt_in {opts : List OptDef} {argv : List Str} {o : OptDef} (ho : o ∈ opts) {name : Str} {eq : Bool} {a : Option Str}
    (ha : ∀ s ∈ a, InWords argv s) {r : List OptDef × LastOpt} (h : expandOpt opts o name eq a = .ok r) :
    (∀ x ∈ r.1, x ∈ opts) ∧ LastIn opts argv r.2 := by
  cases a with
  | none =>
    cases h
    exact ⟨by simp, ho, ha⟩
  | some a =>
    simp only [expandOpt] at h
    split at h
    · cases h
      exact ⟨by simp, ho, ha⟩
    split at h
    · cases h
    · exact cluster_in ho (ha a rfl) h

/-! ## Attributes -/

/-- Parsers whose attributes can be told apart -/
structure ParserOk (p : ParserDef) : Prop where
  opts : OptsOk p.opts
  uniform : Uniform p.opts
  pos : ∀ q ∈ p.pos, ∀ o ∈ p.opts, o.dest ≠ q.dest
  kinds : ∀ o ∈ p.opts, o.kind ≠ .count

/-- Values that attributes can have -/
def Possible (p : ParserDef) (argv : List Str) (k : Str) (v : ArgVal) : Prop :=
  p.defaults.get? k = some v ∨ (∃ o ∈ p.opts, o.dest = k ∧ CanGive argv o v) ∨
    ∃ q ∈ p.pos, q.dest = k ∧ ∃ ws, PosTells q.kind ws v ∧ ∀ w ∈ ws, w ∈ argv

/-- Attributes are the declared ones, with values that are possible -/
def NsOk (p : ParserDef) (argv : List Str) (ns : Dict Str ArgVal) : Prop :=
  (∀ k, ns.get? k = none ↔ p.defaults.get? k = none) ∧ ∀ k v, ns.get? k = some v → Possible p argv k v

theorem defaults_fold (opts : List OptDef) (d : Dict Str ArgVal) (k : Str) :
    (opts.foldl (fun (d : Dict Str ArgVal) o => if o.kind = .help ∨ d.contains o.dest then d else d.set o.dest o.default) d).get? k =
      (d.get? k).or ((opts.find? fun o => decide (o.kind ≠ .help ∧ o.dest = k)).map OptDef.default) := by
  induction opts generalizing d with
  | nil => cases h : d.get? k <;> simp [h]
  | cons o opts ih =>
    rw [List.foldl_cons, ih]
    by_cases hh : o.kind = .help
    · simp [hh]
    by_cases hk : o.dest = k
    · subst hk
      cases hd : d.get? o.dest with
      | none =>
        have hc : d.contains o.dest = false := by
          unfold Dict.contains
          rw [hd]; rfl
        simp [hh, hc, Dict.get?_set_self]
      | some v =>
        have hc : d.contains o.dest = true := by
          unfold Dict.contains
          rw [hd]; rfl
        simp [hc, hd]
    · have : (List.find? (fun o => decide (o.kind ≠ .help ∧ o.dest = k)) (o :: opts)) = List.find? (fun o => decide (o.kind ≠ .help ∧ o.dest = k)) opts := by
        simp [hk]
      rw [this]
      congr 1
      split
      · rfl
      · exact Dict.get?_set_ne _ _ (Ne.symm hk)

theorem defaults_get (p : ParserDef) (hp : ParserOk p) (k : Str) :
    p.defaults.get? k = ((p.opts.find? fun o => decide (o.kind ≠ .help ∧ o.dest = k)).map OptDef.default).or
      (p.pos.bind fun q => if q.dest = k then some ArgVal.none else Option.none) := by
  unfold ParserDef.defaults
  have hf := fun k => defaults_fold p.opts [] k
  generalize p.opts.foldl (fun (d : Dict Str ArgVal) o => if o.kind = .help ∨ d.contains o.dest then d else d.set o.dest o.default) [] = D at hf ⊢
  cases hq : p.pos with
  | none => simp [hf, Dict.get?]
  | some q =>
    have hn : (p.opts.find? fun o => decide (o.kind ≠ .help ∧ o.dest = q.dest)) = none := by
      rw [List.find?_eq_none]
      intro o ho
      simp [hp.pos q (by simp [hq]) o ho]
    have hc : Dict.contains D q.dest = false := by
      unfold Dict.contains
      rw [hf, hn]
      rfl
    simp only [hc]
    by_cases hk : q.dest = k
    · subst hk
      rw [hn]
      simp [Dict.get?_set_self]
    · simp [Dict.get?_set_ne _ _ (Ne.symm hk), hf, hk, Dict.get?]

theorem NsOk.set {p : ParserDef} {argv : List Str} {ns : Dict Str ArgVal} (h : NsOk p argv ns) {k : Str} {v : ArgVal}
    (hk : p.defaults.get? k ≠ none) (hv : Possible p argv k v) : NsOk p argv (ns.set k v) := by
  refine ⟨fun k' => ?_, fun k' v' h' => ?_⟩
  · rw [Dict.get?_set]
    split
    · rename_i e
      subst e
      simp [hk]
    · exact h.1 k'
  · rw [Dict.get?_set] at h'
    split at h'
    · rename_i e
      subst e
      cases h'
      exact hv
    · exact h.2 k' v' h'

theorem declared_opt {p : ParserDef} (hp : ParserOk p) {o : OptDef} (ho : o ∈ p.opts) (hk : o.kind ≠ .help) : p.defaults.get? o.dest ≠ none := by
  rw [defaults_get p hp]
  have : (p.opts.find? fun x => decide (x.kind ≠ .help ∧ x.dest = o.dest)) ≠ none := by
    intro h
    rw [List.find?_eq_none] at h
    exact h o ho (by simp [hk])
  obtain ⟨x, hx⟩ := Option.ne_none_iff_exists'.1 this
  rw [hx]
  simp

theorem declared_pos {p : ParserDef} (hp : ParserOk p) {q : PosDef} (hq : p.pos = some q) : p.defaults.get? q.dest ≠ none := by
  rw [defaults_get p hp, hq]
  simp

theorem applyFlag_ok {p : ParserDef} (hp : ParserOk p) {argv : List Str} {ns ns' : Dict Str ArgVal} (h : NsOk p argv ns) {o : OptDef}
    (ho : o ∈ p.opts) (he : applyFlag ns o = .ok ns') : NsOk p argv ns' := by
  unfold applyFlag at he
  split at he
  · rename_i v hv
    cases he
    exact h.set (declared_opt hp ho (by simp [hv])) (Or.inr (Or.inl ⟨o, ho, rfl, by unfold CanGive; rw [hv]⟩))
  · rename_i hv
    exact absurd hv (hp.kinds o ho)
  · cases he
  · cases he

theorem applyFlags_ok {p : ParserDef} (hp : ParserOk p) {argv : List Str} (l : List OptDef) {ns ns' : Dict Str ArgVal} (h : NsOk p argv ns)
    (hl : ∀ o ∈ l, o ∈ p.opts) (he : l.foldlM applyFlag ns = .ok ns') : NsOk p argv ns' := by
  induction l generalizing ns with
  | nil => cases he; exact h
  | cons o l ih =>
    rw [List.foldlM_cons] at he
    cases h1 : applyFlag ns o with
    | error e => rw [h1] at he; cases he
    | ok ns1 =>
      rw [h1] at he
      exact ih (applyFlag_ok hp h (hl o (by simp)) h1) (fun x hx => hl x (by simp [hx])) he

theorem chosen_ok {choices : Option (List Str)} {s : Str} (h : chosen choices s = .ok ()) : ∀ l ∈ choices, s ∈ l := by
  intro l hl
  cases hl
  unfold chosen at h
  simp only at h
  split at h
  · assumption
  · cases h

theorem storeOne_ok {p : ParserDef} (hp : ParserOk p) {argv : List Str} {ns ns' : Dict Str ArgVal} (h : NsOk p argv ns) {o : OptDef}
    (ho : o ∈ p.opts) {s : Str} (hs : InWords argv s) (he : storeOne ns o s = .ok ns') : NsOk p argv ns' := by
  unfold storeOne at he
  split at he
  · rename_i choices hk
    cases hc : chosen choices s with
    | error e => rw [hc] at he; cases he
    | ok u =>
      rw [hc] at he
      cases he
      refine h.set (declared_opt hp ho (by simp [hk])) (Or.inr (Or.inl ⟨o, ho, rfl, ?_⟩))
      unfold CanGive
      rw [hk]
      cases choices with
      | none => exact ⟨s, rfl, hs⟩
      | some l => exact ⟨s, chosen_ok hc l rfl, rfl, hs⟩
  · rename_i hk
    cases he
    refine h.set (declared_opt hp ho (by simp [hk])) (Or.inr (Or.inl ⟨o, ho, rfl, ?_⟩))
    unfold CanGive
    rw [hk]
    dsimp only
    split
    · rename_i l hl
      rcases h.2 _ _ hl with hd | ⟨o', ho', hd', hg⟩ | ⟨q, hq, hqd, -⟩
      · exfalso
        rw [defaults_get p hp] at hd
        have hu := hp.uniform o ho
        cases hf : p.opts.find? fun x => decide (x.kind ≠ .help ∧ x.dest = o.dest) with
        | none =>
          rw [List.find?_eq_none] at hf
          exact hf o ho (by simp [hk])
        | some x =>
          rw [hf] at hd
          simp only [Option.map_some, Option.some_or, Option.some.injEq] at hd
          have hx := List.find?_some hf
          simp only [decide_eq_true_eq] at hx
          have hxm := List.mem_of_find?_eq_some hf
          have hxa := (hu x hxm hx.2.symm hk).1
          have := (hp.uniform x hxm o ho hx.2 hxa).2
          rw [this] at hd
          cases hd
      · have ha := (hp.uniform o ho o' ho' hd'.symm hk).1
        unfold CanGive at hg
        rw [ha] at hg
        obtain ⟨a, m, hm, hall⟩ := hg
        cases hm
        exact ⟨a, m ++ [s], rfl, by
          intro x hx
          rcases List.mem_cons.1 hx with rfl | hx
          · exact hall _ (by simp)
          · rcases List.mem_append.1 hx with hx | hx
            · exact hall _ (by simp [hx])
            · rw [List.mem_singleton.1 hx]; exact hs⟩
      · exact absurd hqd.symm (hp.pos q hq o ho)
    · exact ⟨s, [], rfl, by simpa using hs⟩
  · rename_i hk
    cases he
    refine h.set (declared_opt hp ho (by simp [hk])) (Or.inr (Or.inl ⟨o, ho, rfl, ?_⟩))
    unfold CanGive
    rw [hk]
    exact ⟨[s], rfl, by simpa using hs⟩
  · cases he

/-! ## States -/

/-- What is expected is about declared options and arguments -/
def ModeOk (p : ParserDef) (argv : List Str) (st : PState) : Prop :=
  match st.mode with
  | .idle => st.pos = none → ∀ q ∈ p.pos, ∃ ws v, st.ns.get? q.dest = some v ∧ PosTells q.kind ws v ∧ ∀ w ∈ ws, w ∈ argv
  | .after => st.pos = none → ∀ q ∈ p.pos, ∃ ws v, st.ns.get? q.dest = some v ∧ PosTells q.kind ws v ∧ ∀ w ∈ ws, w ∈ argv
  | .want flags o => (∀ x ∈ flags, x ∈ p.opts) ∧ o ∈ p.opts ∧
      (st.pos = none → ∀ q ∈ p.pos, ∃ ws v, st.ns.get? q.dest = some v ∧ PosTells q.kind ws v ∧ ∀ w ∈ ws, w ∈ argv)
  | .many o acc => o ∈ p.opts ∧ o.kind = .many ∧ (∀ w ∈ acc, w ∈ argv) ∧
      (st.pos = none → ∀ q ∈ p.pos, ∃ ws v, st.ns.get? q.dest = some v ∧ PosTells q.kind ws v ∧ ∀ w ∈ ws, w ∈ argv)
  | .pos q acc => p.pos = some q ∧ st.pos = none ∧ acc ≠ [] ∧ (q.kind = .star ∨ q.kind = .plus) ∧ ∀ w ∈ acc, w ∈ argv

/-- States that can be reached -/
structure StOk (p : ParserDef) (argv : List Str) (st : PState) : Prop where
  ns : NsOk p argv st.ns
  pos : ∀ q ∈ st.pos, p.pos = some q
  mode : ModeOk p argv st

/-- The attribute of the positional argument is not the one of an option -/
theorem pos_kept {p : ParserDef} (hp : ParserOk p) {o : OptDef} (ho : o ∈ p.opts) (ns : Dict Str ArgVal) (v : ArgVal) {q : PosDef} (hq : q ∈ p.pos) :
    (ns.set o.dest v).get? q.dest = ns.get? q.dest := Dict.get?_set_ne _ _ (Ne.symm (hp.pos q hq o ho))

theorem applyFlag_pos {p : ParserDef} (hp : ParserOk p) {o : OptDef} (ho : o ∈ p.opts) {ns ns' : Dict Str ArgVal} (he : applyFlag ns o = .ok ns')
    {q : PosDef} (hq : q ∈ p.pos) : ns'.get? q.dest = ns.get? q.dest := by
  unfold applyFlag at he
  split at he <;> cases he <;> exact pos_kept hp ho _ _ hq

theorem applyFlags_pos {p : ParserDef} (hp : ParserOk p) (l : List OptDef) (hl : ∀ o ∈ l, o ∈ p.opts) {ns ns' : Dict Str ArgVal}
    (he : l.foldlM applyFlag ns = .ok ns') {q : PosDef} (hq : q ∈ p.pos) : ns'.get? q.dest = ns.get? q.dest := by
  induction l generalizing ns with
  | nil => cases he; rfl
  | cons o l ih =>
    rw [List.foldlM_cons] at he
    cases h1 : applyFlag ns o with
    | error e => rw [h1] at he; cases he
    | ok ns1 =>
      rw [h1] at he
      rw [ih (fun x hx => hl x (by simp [hx])) he, applyFlag_pos hp (hl o (by simp)) h1 hq]

theorem storeOne_pos {p : ParserDef} (hp : ParserOk p) {o : OptDef} (ho : o ∈ p.opts) {s : Str} {ns ns' : Dict Str ArgVal}
    (he : storeOne ns o s = .ok ns') {q : PosDef} (hq : q ∈ p.pos) : ns'.get? q.dest = ns.get? q.dest := by
  unfold storeOne at he
  split at he
  · rename_i choices hk
    cases hc : chosen choices s with
    | error e => rw [hc] at he; cases he
    | ok u => rw [hc] at he; cases he; exact pos_kept hp ho _ _ hq
  · cases he; exact pos_kept hp ho _ _ hq
  · cases he; exact pos_kept hp ho _ _ hq
  · cases he

theorem closeMode_ok {p : ParserDef} (hp : ParserOk p) {argv : List Str} {st st' : PState} (h : StOk p argv st) (he : closeMode st = .ok st') :
    StOk p argv st' ∧ st'.mode = .idle ∧ st'.extras = st.extras := by
  obtain ⟨hn, hpos, hm⟩ := h
  obtain ⟨ns, pos, extras, mode⟩ := st
  unfold closeMode at he
  cases mode with
  | want flags o => cases he
  | many o acc =>
    cases he
    obtain ⟨h1, h2, h3, h4⟩ := hm
    refine ⟨⟨hn.set (declared_opt hp h1 (by simp [h2])) (Or.inr (Or.inl ⟨o, h1, rfl, ?_⟩)), hpos, ?_⟩, rfl, rfl⟩
    · unfold CanGive
      rw [h2]
      exact ⟨acc, rfl, fun x hx => ⟨x, h3 x hx, List.suffix_refl _⟩⟩
    · intro hnone q hq
      obtain ⟨ws, v, hv, ht, hw⟩ := h4 hnone q hq
      exact ⟨ws, v, by rw [← hv]; exact pos_kept hp h1 _ _ hq, ht, hw⟩
  | pos q acc =>
    cases he
    obtain ⟨h1, h2, h3, h4, h5⟩ := hm
    have ht : PosTells q.kind acc (.list acc) := by
      rcases h4 with h4 | h4 <;> rw [h4]
      · rfl
      · exact ⟨h3, rfl⟩
    refine ⟨⟨hn.set (declared_pos hp h1) (Or.inr (Or.inr ⟨q, by simp [h1], rfl, acc, ht, h5⟩)), hpos, ?_⟩, rfl, rfl⟩
    intro _ q' hq'
    rw [h1] at hq'
    cases hq'
    exact ⟨acc, .list acc, Dict.get?_set_self .., ht, h5⟩
  | idle => cases he; exact ⟨⟨hn, hpos, hm⟩, rfl, rfl⟩
  | after => cases he; exact ⟨⟨hn, hpos, hm⟩, rfl, rfl⟩

theorem consumeOpt_ok {p : ParserDef} (hp : ParserOk p) {argv : List Str} {st st' : PState} (h : StOk p argv st) (hi : st.mode = .idle) {o : OptDef}
    (ho : o ∈ p.opts) {name : Str} {eq : Bool} {a : Option Str} (ha : ∀ s ∈ a, InWords argv s) (he : consumeOpt p.opts st o name eq a = .ok st') :
    StOk p argv st' ∧ ∃ l, st'.extras = st.extras ++ l := by
  obtain ⟨hn, hpos, hm⟩ := h
  obtain ⟨ns, pos, extras, mode⟩ := st
  cases hi
  unfold consumeOpt at he
  cases h1 : expandOpt p.opts o name eq a with
  | error e => rw [h1] at he; cases he
  | ok r =>
    obtain ⟨flags, last⟩ := r
    obtain ⟨hf, hl⟩ := expandOpt_in ho ha h1
    rw [h1] at he
    simp only [bind, Except.bind] at he
    cases last with
    | extra s =>
      simp only at he
      cases h2 : flags.foldlM applyFlag ns with
      | error e => rw [h2] at he; cases he
      | ok ns1 =>
        rw [h2] at he
        cases he
        refine ⟨⟨applyFlags_ok hp flags hn hf h2, hpos, ?_⟩, [s], rfl⟩
        intro hnone q hq
        obtain ⟨ws, v, hv, ht⟩ := hm hnone q hq
        exact ⟨ws, v, by rw [← hv]; exact applyFlags_pos hp flags hf h2 hq, ht⟩
    | opt o' arg =>
      obtain ⟨ho', ha'⟩ := hl
      cases arg with
      | some s =>
        simp only at he
        cases h2 : flags.foldlM applyFlag ns with
        | error e => rw [h2] at he; cases he
        | ok ns1 =>
          rw [h2] at he
          simp only at he
          cases h3 : storeOne ns1 o' s with
          | error e => rw [h3] at he; cases he
          | ok ns2 =>
            rw [h3] at he
            cases he
            refine ⟨⟨storeOne_ok hp (applyFlags_ok hp flags hn hf h2) ho' (ha' s rfl) h3, hpos, ?_⟩, [], by simp⟩
            intro hnone q hq
            obtain ⟨ws, v, hv, ht⟩ := hm hnone q hq
            exact ⟨ws, v, by rw [← hv, storeOne_pos hp ho' h3 hq]; exact applyFlags_pos hp flags hf h2 hq, ht⟩
      | none =>
        simp only at he
        split at he
        · cases h2 : flags.foldlM applyFlag ns with
          | error e => rw [h2] at he; cases he
          | ok ns1 =>
            rw [h2] at he
            simp only at he
            cases h3 : applyFlag ns1 o' with
            | error e => rw [h3] at he; cases he
            | ok ns2 =>
              rw [h3] at he
              cases he
              refine ⟨⟨applyFlag_ok hp (applyFlags_ok hp flags hn hf h2) ho' h3, hpos, ?_⟩, [], by simp⟩
              intro hnone q hq
              obtain ⟨ws, v, hv, ht⟩ := hm hnone q hq
              exact ⟨ws, v, by rw [← hv, applyFlag_pos hp ho' h3 hq]; exact applyFlags_pos hp flags hf h2 hq, ht⟩
        split at he
        · rename_i hk
          cases h2 : flags.foldlM applyFlag ns with
          | error e => rw [h2] at he; cases he
          | ok ns1 =>
            rw [h2] at he
            cases he
            refine ⟨⟨applyFlags_ok hp flags hn hf h2, hpos, ho', hk, by simp, ?_⟩, [], by simp⟩
            intro hnone q hq
            obtain ⟨ws, v, hv, ht⟩ := hm hnone q hq
            exact ⟨ws, v, by rw [← hv]; exact applyFlags_pos hp flags hf h2 hq, ht⟩
        · cases he
          exact ⟨⟨hn, hpos, hf, ho', hm⟩, [], by simp⟩

theorem consumeArg_ok {p : ParserDef} (hp : ParserOk p) {argv : List Str} {st st' : PState} (h : StOk p argv st) {s : Str} (hs : s ∈ argv)
    (he : consumeArg st s = .ok st') : StOk p argv st' ∧ ∃ l, st'.extras = st.extras ++ l := by
  obtain ⟨hn, hpos, hm⟩ := h
  obtain ⟨ns, pos, extras, mode⟩ := st
  have idle : ∀ (hm : pos = none → ∀ q ∈ p.pos, ∃ ws v, ns.get? q.dest = some v ∧ PosTells q.kind ws v ∧ ∀ w ∈ ws, w ∈ argv) (m : PMode),
      (m = .idle ∨ m = .after) → consumeArg ⟨ns, pos, extras, m⟩ s = .ok st' → StOk p argv st' ∧ ∃ l, st'.extras = extras ++ l := by
    intro hm m hmm he
    have hmo : ModeOk p argv ⟨ns, pos, extras, m⟩ := by rcases hmm with rfl | rfl <;> exact hm
    have he' : (match pos with
      | none => Except.ok (ε := ArgStop) (⟨ns, pos, extras ++ [s], m⟩ : PState)
      | some p => match p.kind with
        | .one choices => do
          chosen choices s
          Except.ok (⟨ns.set p.dest (.str s), none, extras, .after⟩ : PState)
        | .opt => Except.ok (⟨ns.set p.dest (.str s), none, extras, .after⟩ : PState)
        | .star | .plus => Except.ok (⟨ns, none, extras, .pos p [s]⟩ : PState)) = .ok st' := by
      rcases hmm with rfl | rfl <;> exact he
    clear he
    cases pos with
    | none =>
      cases he'
      refine ⟨⟨hn, hpos, ?_⟩, [s], rfl⟩
      rcases hmm with rfl | rfl <;> exact hm
    | some q =>
      have hq := hpos q rfl
      simp only at he'
      have put : ∀ v, PosTells q.kind [s] v → StOk p argv ⟨ns.set q.dest v, none, extras, .after⟩ := by
        intro v ht
        refine ⟨hn.set (declared_pos hp hq) (Or.inr (Or.inr ⟨q, by simp [hq], rfl, [s], ht, by simpa using hs⟩)), by simp, ?_⟩
        intro _ q' hq'
        rw [hq] at hq'
        cases hq'
        exact ⟨[s], v, Dict.get?_set_self .., ht, by simpa using hs⟩
      split at he'
      · rename_i choices hk
        cases hc : chosen choices s with
        | error e => rw [hc] at he'; cases he'
        | ok u =>
          rw [hc] at he'
          cases he'
          refine ⟨put _ ?_, [], by simp⟩
          rw [hk]
          cases choices with
          | none => exact ⟨s, rfl, rfl⟩
          | some l => exact ⟨s, chosen_ok hc l rfl, rfl, rfl⟩
      · rename_i hk
        cases he'
        refine ⟨put _ ?_, [], by simp⟩
        rw [hk]
        exact Or.inr ⟨s, rfl, rfl⟩
      · rename_i hk
        cases he'
        exact ⟨⟨hn, by simp, hq, rfl, by simp, Or.inl hk, by simpa using hs⟩, [], by simp⟩
      · rename_i hk
        cases he'
        exact ⟨⟨hn, by simp, hq, rfl, by simp, Or.inr hk, by simpa using hs⟩, [], by simp⟩
  cases mode with
  | idle => exact idle hm _ (Or.inl rfl) he
  | after => exact idle hm _ (Or.inr rfl) he
  | want flags o =>
    obtain ⟨hf, ho, hm⟩ := hm
    unfold consumeArg at he
    simp only [bind, Except.bind] at he
    cases h2 : flags.foldlM applyFlag ns with
    | error e => rw [h2] at he; cases he
    | ok ns1 =>
      rw [h2] at he
      simp only at he
      cases h3 : storeOne ns1 o s with
      | error e => rw [h3] at he; cases he
      | ok ns2 =>
        rw [h3] at he
        cases he
        refine ⟨⟨storeOne_ok hp (applyFlags_ok hp flags hn hf h2) ho ⟨s, hs, List.suffix_refl _⟩ h3, hpos, ?_⟩, [], by simp⟩
        intro hnone q hq
        obtain ⟨ws, v, hv, ht⟩ := hm hnone q hq
        exact ⟨ws, v, by rw [← hv, storeOne_pos hp ho h3 hq]; exact applyFlags_pos hp flags hf h2 hq, ht⟩
  | many o acc =>
    cases he
    obtain ⟨h1, h2, h3, h4⟩ := hm
    refine ⟨⟨hn, hpos, h1, h2, ?_, h4⟩, [], by simp⟩
    intro w hw
    rcases List.mem_append.1 hw with hw | hw
    · exact h3 w hw
    · rw [List.mem_singleton.1 hw]; exact hs
  | pos q acc =>
    cases he
    obtain ⟨h1, h2, h3, h4, h5⟩ := hm
    refine ⟨⟨hn, hpos, h1, h2, by simp, h4, ?_⟩, [], by simp⟩
    intro w hw
    rcases List.mem_append.1 hw with hw | hw
    · exact h5 w hw
    · rw [List.mem_singleton.1 hw]; exact hs

theorem parseStep_ok {p : ParserDef} (hp : ParserOk p) {argv : List Str} {st st' : PState} (h : StOk p argv st) {t : Tok} (ht : TokIn p.opts argv t)
    (he : parseStep p.opts st t = .ok st') :
    StOk p argv st' ∧ ∃ l, st'.extras = st.extras ++ l ∧ ∀ s, t = .unknown s → s ∈ l := by
  cases t with
  | arg s =>
    obtain ⟨h1, l, h2⟩ := consumeArg_ok hp h ht he
    exact ⟨h1, l, h2, fun s h => by cases h⟩
  | opt o name eq a =>
    simp only [parseStep] at he
    cases h1 : closeMode st with
    | error e => rw [h1] at he; cases he
    | ok st1 =>
      rw [h1] at he
      obtain ⟨h2, h3, h4⟩ := closeMode_ok hp h h1
      obtain ⟨h5, l, h6⟩ := consumeOpt_ok hp h2 h3 ht.1 ht.2 he
      exact ⟨h5, l, by rw [h6, h4], fun s h => by cases h⟩
  | unknown s =>
    simp only [parseStep] at he
    cases h1 : closeMode st with
    | error e => rw [h1] at he; cases he
    | ok st1 =>
      rw [h1] at he
      obtain ⟨h2, h3, h4⟩ := closeMode_ok hp h h1
      cases he
      refine ⟨⟨h2.ns, h2.pos, ?_⟩, [s], by rw [← h4], fun s' h => by cases h; simp⟩
      have := h2.mode
      unfold ModeOk at this ⊢
      simp only [h3] at this ⊢
      exact this
  | sep =>
    simp only [parseStep] at he
    have hm := h.mode
    obtain ⟨ns, pos, extras, mode⟩ := st
    cases mode with
    | want flags o => cases he
    | many o acc =>
      cases he
      obtain ⟨h2, h3, h4⟩ := closeMode_ok (st' := ⟨ns.set o.dest (.list acc), pos, extras, .idle⟩) hp h rfl
      refine ⟨⟨h2.ns, h2.pos, h2.mode⟩, if pos.isSome then [] else ["--".toList], ?_, fun s h => by cases h⟩
      cases pos <;> simp
    | pos q acc => cases he; exact ⟨h, [], by simp, fun s h => by cases h⟩
    | after => cases he; exact ⟨⟨h.ns, h.pos, hm⟩, [], by simp, fun s h => by cases h⟩
    | idle =>
      cases he
      refine ⟨⟨h.ns, h.pos, hm⟩, if pos.isSome then [] else ["--".toList], ?_, fun s h => by cases h⟩
      cases pos <;> simp

theorem parseSteps_ok {p : ParserDef} (hp : ParserOk p) {argv : List Str} (ts : List Tok) {st st' : PState} (h : StOk p argv st)
    (ht : ∀ t ∈ ts, TokIn p.opts argv t) (he : ts.foldlM (parseStep p.opts) st = .ok st') :
    StOk p argv st' ∧ ∃ l, st'.extras = st.extras ++ l ∧ ∀ s, .unknown s ∈ ts → s ∈ l := by
  induction ts generalizing st with
  | nil => cases he; exact ⟨h, [], by simp, by simp⟩
  | cons t ts ih =>
    rw [List.foldlM_cons] at he
    cases h1 : parseStep p.opts st t with
    | error e => rw [h1] at he; cases he
    | ok st1 =>
      rw [h1] at he
      obtain ⟨h2, l, h3, h4⟩ := parseStep_ok hp h (ht t (by simp)) h1
      obtain ⟨h5, l', h6, h7⟩ := ih h2 (fun x hx => ht x (by simp [hx])) he
      refine ⟨h5, l ++ l', by rw [h6, h3, List.append_assoc], fun s hs => ?_⟩
      rcases List.mem_cons.1 hs with hs | hs
      · exact List.mem_append_left _ (h4 s hs.symm)
      · exact List.mem_append_right _ (h7 s hs)

theorem parse_sound {p : ParserDef} (hp : ParserOk p) {argv : List Str} {ns : Dict Str ArgVal} (he : p.parse argv = .ok ns) :
    NsOk p argv ns ∧ (∀ q ∈ p.pos, ∃ ws v, ns.get? q.dest = some v ∧ PosTells q.kind ws v ∧ ∀ w ∈ ws, w ∈ argv) ∧
      ∃ ts, tokens p.opts argv = .ok ts ∧ ∀ s, .unknown s ∉ ts := by
  unfold ParserDef.parse at he
  cases h1 : tokens p.opts argv with
  | error e => rw [h1] at he; cases he
  | ok ts =>
    rw [h1] at he
    simp only [bind, Except.bind] at he
    have h0 : StOk p argv ⟨p.defaults, p.pos, [], .idle⟩ := by
      refine ⟨⟨fun _ => Iff.rfl, fun k v h => Or.inl h⟩, fun q hq => hq, ?_⟩
      intro hn q hq
      rw [show p.pos = none from hn] at hq
      cases hq
    cases h2 : ts.foldlM (parseStep p.opts) ⟨p.defaults, p.pos, [], .idle⟩ with
    | error e => rw [h2] at he; cases he
    | ok st =>
      rw [h2] at he
      obtain ⟨h3, l, h4, h5⟩ := parseSteps_ok hp ts h0 (tokens_in argv argv (fun _ h => h) h1) h2
      simp only [parseEnd, bind, Except.bind] at he
      cases h6 : closeMode st with
      | error e => rw [h6] at he; cases he
      | ok st1 =>
        rw [h6] at he
        obtain ⟨h7, h8, h9⟩ := closeMode_ok hp h3 h6
        have hm := h7.mode
        unfold ModeOk at hm
        rw [h8] at hm
        simp only at hm he
        have fin : ∀ {ns1 : Dict Str ArgVal}, (if st1.extras.isEmpty then Except.ok (ε := ArgStop) ns1 else .error .usage) = .ok ns →
            ns1 = ns ∧ ∃ ts', Except.ok (ε := ArgStop) ts = .ok ts' ∧ ∀ s, .unknown s ∉ ts' := by
          intro ns1 h
          split at h
          · rename_i hx
            cases h
            refine ⟨rfl, ts, rfl, fun s hs => ?_⟩
            have := h5 s hs
            have hl : l = [] := by
              have h10 : st1.extras = [] := by simpa using hx
              rw [h9, h4] at h10
              simpa using h10
            rw [hl] at this
            cases this
          · cases h
        cases hq : st1.pos with
        | none =>
          rw [hq] at he
          obtain ⟨rfl, h10⟩ := fin he
          exact ⟨h7.ns, hm hq, h10⟩
        | some q =>
          rw [hq] at he
          have hpq := h7.pos q (by simp [hq])
          simp only at he
          split at he
          · cases he
          · cases he
          · rename_i st2 hk
            obtain ⟨rfl, h10⟩ := fin he
            refine ⟨h7.ns, ?_, h10⟩
            intro q' hq'
            rw [hpq] at hq'
            cases hq'
            -- not given: still the default, or a possible value
            have hd := declared_pos hp hpq
            have hnn : st1.ns.get? q.dest ≠ none := fun h => hd ((h7.ns.1 _).1 h)
            obtain ⟨v, hv⟩ := Option.ne_none_iff_exists'.1 hnn
            rcases h7.ns.2 _ _ hv with h11 | ⟨o, ho, hod, -⟩ | ⟨q2, hq2, -, ws, ht, hw⟩
            · refine ⟨[], v, hv, ?_, by simp⟩
              rw [hk]
              left
              refine ⟨rfl, ?_⟩
              rw [defaults_get p hp, hpq] at h11
              have hn : (p.opts.find? fun o => decide (o.kind ≠ .help ∧ o.dest = q.dest)) = none := by
                rw [List.find?_eq_none]
                intro o ho
                simp [hp.pos q (by simp [hpq]) o ho]
              rw [hn] at h11
              simpa using h11.symm
            · exact absurd hod (hp.pos q (by simp [hpq]) o ho)
            · rw [hpq] at hq2
              cases hq2
              exact ⟨ws, v, hv, ht, hw⟩
          · rename_i hk
            obtain ⟨rfl, h10⟩ := fin he
            have ht : PosTells q.kind [] (.list []) := by rw [hk]; rfl
            refine ⟨h7.ns.set (declared_pos hp hpq) (Or.inr (Or.inr ⟨q, by simp [hpq], rfl, [], ht, by simp⟩)), ?_, h10⟩
            intro q' hq'
            rw [hpq] at hq'
            cases hq'
            exact ⟨[], .list [], Dict.get?_set_self .., ht, by simp⟩

end Cdtb
