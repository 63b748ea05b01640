import Verif.Props.C63ex
import Verif.Props.C40
import Verif.Spec.RadsElements
/-!
# C64  Patch elements of RADS storages, end to end
-/
namespace Cdtb
set_option autoImplicit false
open Py Spec

section
variable {cfg : RadsCfg} {site : RadsSite} {served : Str → Option Bytes} {inflate : Bytes → Res Bytes}

theorem Spec.SolElems.append {exe : Bytes → Res (Option Str)} {name : Str} {a b : List SolVer} {l l' : List RadsElem} (h : SolElems site exe name a l)
    (h' : SolElems site exe name b l') : SolElems site exe name (a ++ b) (l ++ l') := by
  induction h with
  | nil => exact h'
  | skip h1 _ ih => exact .skip h1 ih
  | elem h1 h2 _ ih => exact .elem h1 h2 ih

theorem Spec.SolElems.names {exe : Bytes → Res (Option Str)} {name : Str} {a : List SolVer} {l : List RadsElem} (h : SolElems site exe name a l) :
    ∀ e ∈ l, e.name = name := by
  induction h with
  | nil => simp
  | skip _ _ ih => exact ih
  | elem _ _ _ ih =>
    intro e he
    rcases List.mem_cons.1 he with rfl | he
    · rfl
    · exact ih e he

/-- Two lists of elements of the same solution versions are equal. -/
theorem Spec.SolElems.unique {exe : Bytes → Res (Option Str)} {name : Str} {a : List SolVer} {l l' : List RadsElem} (h : SolElems site exe name a l)
    (h' : SolElems site exe name a l') : l = l' := by
  induction h generalizing l' with
  | nil => cases h'; rfl
  | skip h1 _ ih =>
    cases h' with
    | skip _ h2 => exact ih h2
    | elem h2 _ _ => exact absurd (C63_unique _ _ _ _ _ _ h1 h2) (by simp)
  | elem h1 h2 _ ih =>
    cases h' with
    | skip h3 _ => exact absurd (C63_unique _ _ _ _ _ _ h1 h3) (by simp)
    | elem h3 h4 h5 =>
      have := C63_unique _ _ _ _ _ _ h1 h3
      simp only [Option.some.injEq] at this
      subst this
      rw [h2] at h4
      cases h4
      rw [ih h5]

/-- A call of `patch_version` -/
theorem call_spec (hpbe : cfg.url ≠ urlPbe) (hon : cfg.On site served inflate) {ws : Nat → RadsWorld} (hws : ∀ i, RadsWorldOk served (ws i))
    {st : RadsState} (hg : GoodRads cfg.base site served cfg.exe st.fs) {sv : SolVer} (hsv : sv.Plain) :
    Adds (RadsFile cfg.base site served cfg.exe) st.fs (cfg.call ws st sv).1.fs ∧
    (∀ r, (cfg.call ws st sv).2 = .ok r → ∃ t, site.Patch cfg.exe sv.name sv.version.s t ∧ PatchOf t r) ∧
    ∀ v, (cfg.call ws st sv).2 = .ok (some v) → ∀ i, cfg.call ws ⟨(cfg.call ws st sv).1.fs, i⟩ sv = (⟨(cfg.call ws st sv).1.fs, i + 1⟩, .ok (some v)) := by
  obtain ⟨h1, h2⟩ := version_spec hpbe hon (hws st.calls) hg hsv
  refine ⟨h1, fun r hr => (h2 r hr).1, fun v hv i => ?_⟩
  have := C63_cached hpbe hon (ws st.calls) (hws _) st.fs (cfg.patchVersion (ws st.calls) st.fs sv).1 hg sv hsv v (Prod.ext rfl hv) _ rfl (ws i)
  simp only [RadsCfg.call]
  rw [this]

theorem nextElem_spec (hpbe : cfg.url ≠ urlPbe) (hon : cfg.On site served inflate) {ws : Nat → RadsWorld} (hws : ∀ i, RadsWorldOk served (ws i))
    {solution name : Str} (hname : elementName solution = .ok name) (svs : List SolVer) (hsvs : ∀ sv ∈ svs, sv.Plain ∧ sv.name = solution)
    {st : RadsState} (hg : GoodRads cfg.base site served cfg.exe st.fs) :
    Adds (RadsFile cfg.base site served cfg.exe) st.fs (cfg.nextElem ws st svs).1.fs ∧
    ∀ o rest, (cfg.nextElem ws st svs).2 = .ok (o, rest) → ∃ done, svs = done ++ rest ∧ SolElems site cfg.exe name done o.toList ∧ (o = none → rest = []) := by
  induction svs generalizing st with
  | nil =>
    refine ⟨.refl _ _, fun o rest h => ?_⟩
    simp only [RadsCfg.nextElem, Except.ok.injEq, Prod.mk.injEq] at h
    obtain ⟨rfl, rfl⟩ := h
    exact ⟨[], rfl, .nil, fun _ => rfl⟩
  | cons sv svs ih =>
    obtain ⟨hsv, hsn⟩ := hsvs sv (by simp)
    obtain ⟨h1, h2, h3⟩ := call_spec hpbe hon hws hg hsv
    unfold RadsCfg.nextElem
    rcases hc : cfg.call ws st sv with ⟨st1, e | o⟩
    · rw [hc] at h1; exact ⟨h1, by simp⟩
    · rw [hc] at h1 h2 h3
      simp only at h1 h2 h3 ⊢
      obtain ⟨t, ht, hp⟩ := h2 o rfl
      cases o with
      | none =>
        have : t = none := by
          cases t with
          | none => rfl
          | some t => obtain ⟨v, hv, -⟩ := hp; simp at hv
        subst this
        obtain ⟨h4, h5⟩ := ih (fun x hx => hsvs x (by simp [hx])) (adds_good hg h1)
        refine ⟨h1.trans h4, fun o rest h => ?_⟩
        obtain ⟨done, rfl, h6, h7⟩ := h5 o rest h
        exact ⟨sv :: done, rfl, .skip ht h6, h7⟩
      | some v =>
        cases t with
        | none => simp [PatchOf] at hp
        | some t =>
          obtain ⟨v', hv', hpv⟩ := hp
          cases hv'
          have hcall := h3 v rfl st1.calls
          simp only [RadsCfg.element, hsn, hname]
          have : (⟨st1.fs, st1.calls⟩ : RadsState) = st1 := rfl
          rw [this] at hcall
          rw [hcall]
          refine ⟨h1, fun o rest h => ?_⟩
          simp only [Except.ok.injEq, Prod.mk.injEq] at h
          obtain ⟨rfl, rfl⟩ := h
          exact ⟨[sv], rfl, .elem ht hpv .nil, by simp⟩

/-- What a peeker may hold -/
structure PeekOk (site : RadsSite) (exe : Bytes → Res (Option Str)) (solution name : Str) (p : Peeker) : Prop where
  rest : ∀ sv ∈ p.rest, sv.Plain ∧ sv.name = solution
  cur : ∀ e, p.cur = some e → e.name = name

theorem peek_spec (hpbe : cfg.url ≠ urlPbe) (hon : cfg.On site served inflate) {ws : Nat → RadsWorld} (hws : ∀ i, RadsWorldOk served (ws i))
    {solution name : Str} (hname : elementName solution = .ok name) {p : Peeker} (hp : PeekOk site cfg.exe solution name p)
    {st : RadsState} (hg : GoodRads cfg.base site served cfg.exe st.fs) :
    Adds (RadsFile cfg.base site served cfg.exe) st.fs (cfg.peek ws st p).1.fs ∧
    ∀ p', (cfg.peek ws st p).2 = .ok p' → PeekOk site cfg.exe solution name p' ∧ p'.size ≤ p.size ∧ (p'.cur = none → p'.rest = []) ∧
      ∃ done l, p.rest = done ++ p'.rest ∧ SolElems site cfg.exe name done l ∧ p.cur.toList ++ l = p'.cur.toList := by
  obtain ⟨cur, rest⟩ := p
  unfold RadsCfg.peek
  cases cur with
  | some e =>
    refine ⟨.refl _ _, fun p' h => ?_⟩
    simp only [Except.ok.injEq] at h
    subst h
    exact ⟨hp, le_refl _, by simp, [], [], rfl, .nil, rfl⟩
  | none =>
    obtain ⟨h1, h2⟩ := nextElem_spec hpbe hon hws hname rest hp.rest hg
    simp only
    rcases hn : cfg.nextElem ws st rest with ⟨st1, e | ⟨o, rest'⟩⟩
    · rw [hn] at h1; exact ⟨h1, by simp⟩
    · rw [hn] at h1 h2
      refine ⟨h1, fun p' h => ?_⟩
      simp only [Except.ok.injEq] at h
      subst h
      obtain ⟨done, rfl, h3, h4⟩ := h2 o rest' rfl
      refine ⟨⟨fun sv hsv => hp.rest sv (by simp [hsv]), fun e he => ?_⟩, ?_, h4, done, _, rfl, h3, rfl⟩
      · simp only at he
        subst he
        exact h3.names e (by simp)
      · have hd : o.toList.length ≤ done.length := by
          clear hn h2 h4 h1 hp
          cases o with
          | none => simp
          | some e =>
            cases done with
            | nil => cases h3
            | cons x done => simp
        simp only [Peeker.size, Option.toList_none, List.length_nil, List.length_append]
        omega

theorem bestElem_spec {c g : Option RadsElem} {o : Option (Bool × RadsElem)} (h : bestElem c g = .ok o) :
    (o = none ∧ c = none ∧ g = none) ∨ (∃ e, o = some (false, e) ∧ c = some e ∧ ∀ x, g = some x → NewerElem e x) ∨
    ∃ e, o = some (true, e) ∧ g = some e ∧ ∀ x, c = some x → e.version.cmp .gt x.version = .ok true := by
  cases c with
  | none =>
    cases g with
    | none => simp only [bestElem, Except.ok.injEq] at h; exact Or.inl ⟨h.symm, rfl, rfl⟩
    | some g => simp only [bestElem, Except.ok.injEq] at h; exact Or.inr (Or.inr ⟨g, h.symm, rfl, by simp⟩)
  | some c =>
    cases g with
    | none => simp only [bestElem, Except.ok.injEq] at h; exact Or.inr (Or.inl ⟨c, h.symm, rfl, by simp⟩)
    | some g =>
      simp only [bestElem] at h
      cases hc : g.version.cmp .gt c.version with
      | error e => rw [hc] at h; simp [Except.map] at h
      | ok b =>
        rw [hc] at h
        cases b with
        | true =>
          simp only [Except.map, if_true, Except.ok.injEq] at h
          exact Or.inr (Or.inr ⟨g, h.symm, rfl, by rintro x ⟨⟩; exact hc⟩)
        | false =>
          simp only [Except.map, Bool.false_eq_true, if_false, Except.ok.injEq] at h
          exact Or.inr (Or.inl ⟨c, h.symm, rfl, by rintro x ⟨⟩; exact version_not_gt hc⟩)

theorem client_ne_game : "client".toList ≠ "game".toList := by decide +kernel

/-- The elements called `name` among those yielded are the first ones of a peeker, all of them at the end. -/
def MergePart (site : RadsSite) (exe : Bytes → Res (Option Str)) (name : Str) (p : Peeker) (out : List RadsElem) (r : Res Unit) : Prop :=
  ∃ done rest l, p.rest = done ++ rest ∧ SolElems site exe name done l ∧ elemsNamed name out <+: p.cur.toList ++ l ∧
    (r = .ok () → rest = [] ∧ elemsNamed name out = p.cur.toList ++ l)

section
variable {exe : Bytes → Res (Option Str)} {name : Str} {p : Peeker} {out : List RadsElem} {r : Res Unit}

theorem MergePart.pre {p' : Peeker} {done : List SolVer} {l : List RadsElem} (h1 : p.rest = done ++ p'.rest) (h2 : SolElems site exe name done l)
    (h3 : p.cur.toList ++ l = p'.cur.toList) (h : MergePart site exe name p' out r) : MergePart site exe name p out r := by
  obtain ⟨done', rest, l', e1, e2, e3, e4⟩ := h
  refine ⟨done ++ done', rest, l ++ l', by rw [h1, e1, List.append_assoc], h2.append e2, ?_⟩
  rw [← List.append_assoc, h3]
  exact ⟨e3, e4⟩

theorem MergePart.fail (p : Peeker) (e : Err) : MergePart site exe name p [] (.error e) :=
  ⟨[], p.rest, [], rfl, .nil, List.nil_prefix, by simp⟩

theorem MergePart.stop (h1 : p.cur = none) (h2 : p.rest = []) : MergePart site exe name p [] r :=
  ⟨[], [], [], by simp [h2], .nil, List.nil_prefix, fun _ => ⟨rfl, by rw [h1]; rfl⟩⟩

theorem MergePart.take {e : RadsElem} (h1 : p.cur = some e) (hn : e.name = name) (h : MergePart site exe name { p with cur := none } out r) :
    MergePart site exe name p (e :: out) r := by
  obtain ⟨done, rest, l, e1, e2, e3, e4⟩ := h
  have : elemsNamed name (e :: out) = e :: elemsNamed name out := by simp [elemsNamed, hn]
  refine ⟨done, rest, l, e1, e2, ?_, fun hr => ⟨(e4 hr).1, ?_⟩⟩
  · rw [this, h1]; exact (List.prefix_cons_inj e).2 e3
  · rw [this, h1, (e4 hr).2]; rfl

theorem elemsNamed_other {e : RadsElem} (hn : e.name ≠ name) : elemsNamed name (e :: out) = elemsNamed name out := by simp [elemsNamed, hn]

theorem MergePart.other {e : RadsElem} (hn : e.name ≠ name) (h : MergePart site exe name p out r) : MergePart site exe name p (e :: out) r := by
  unfold MergePart at *
  rwa [elemsNamed_other hn]

theorem MergePart.first {x : RadsElem} (h : MergePart site exe name p out r) (hx : p.cur = some x)
    (hs : (elemsNamed name out).Pairwise NewerElem) : ∀ e ∈ out, e.name = name → e = x ∨ NewerElem x e := by
  obtain ⟨done, rest, l, e1, e2, e3, e4⟩ := h
  intro e he hn
  have hm : e ∈ elemsNamed name out := by simp [elemsNamed, he, hn]
  rw [hx] at e3
  generalize elemsNamed name out = k at *
  cases k with
  | nil => simp at hm
  | cons y k =>
    have hyx : y = x := ((List.cons_prefix_cons).1 e3).1
    subst hyx
    rcases List.mem_cons.1 hm with rfl | hm
    · exact Or.inl rfl
    · exact Or.inr ((List.pairwise_cons.1 hs).1 e hm)

theorem MergePart.empty (h : MergePart site exe name p out r) (h1 : p.cur = none) (h2 : p.rest = []) : ∀ e ∈ out, e.name ≠ name := by
  obtain ⟨done, rest, l, e1, e2, e3, e4⟩ := h
  rw [h2] at e1
  obtain ⟨rfl, rfl⟩ := List.append_eq_nil_iff.1 e1.symm
  cases e2
  rw [h1] at e3
  have := List.prefix_nil.1 e3
  intro e he hn
  have hm : e ∈ elemsNamed name out := by simp [elemsNamed, he, hn]
  rw [this] at hm
  simp at hm

end

/-- What the main loop gives -/
structure MergeOk (site : RadsSite) (exe : Bytes → Res (Option Str)) (client game : Str) (c g : Peeker) (out : List RadsElem) (r : Res Unit) : Prop where
  names : ∀ e ∈ out, e.name = client ∨ e.name = game
  clients : MergePart site exe client c out r
  games : MergePart site exe game g out r
  sorted : (elemsNamed client out).Pairwise NewerElem → (elemsNamed game out).Pairwise NewerElem → out.Pairwise NewerElem
  first : (elemsNamed client out).Pairwise NewerElem →
    out.Pairwise fun a b => a.name = game → b.name = client → a.version.cmp .gt b.version = .ok true

theorem elemsNamed_tail {name : Str} {e : RadsElem} {out : List RadsElem} (h : (elemsNamed name (e :: out)).Pairwise NewerElem) :
    (elemsNamed name out).Pairwise NewerElem := by
  unfold elemsNamed at *
  rw [List.filter_cons] at h
  split at h
  · exact (List.pairwise_cons.1 h).2
  · exact h

/-- The main loop: the elements of each solution that are yielded are the first ones; they are merged in order. -/
theorem mergeLoop_spec (hpbe : cfg.url ≠ urlPbe) (hon : cfg.On site served inflate) {ws : Nat → RadsWorld} (hws : ∀ i, RadsWorldOk served (ws i))
    (n : Nat) {c g : Peeker} (hc : PeekOk site cfg.exe "league_client_sln".toList "client".toList c)
    (hgm : PeekOk site cfg.exe "lol_game_client_sln".toList "game".toList g) {st : RadsState} (hg : GoodRads cfg.base site served cfg.exe st.fs) :
    Adds (RadsFile cfg.base site served cfg.exe) st.fs (cfg.mergeLoop ws n st c g).1.fs ∧
    MergeOk site cfg.exe "client".toList "game".toList c g (cfg.mergeLoop ws n st c g).2.1 (cfg.mergeLoop ws n st c g).2.2 := by
  have hcg := client_ne_game
  have hnc : elementName "league_client_sln".toList = .ok "client".toList := by decide +kernel
  have hng : elementName "lol_game_client_sln".toList = .ok "game".toList := by decide +kernel
  generalize "client".toList = client at *
  generalize "game".toList = game at *
  generalize "league_client_sln".toList = csln at *
  generalize "lol_game_client_sln".toList = gsln at *
  have stop : ∀ e, MergeOk site cfg.exe client game c g [] (.error e) := fun e =>
    ⟨by simp, .fail _ _, .fail _ _, by simp, by simp⟩
  induction n generalizing st c g with
  | zero => exact ⟨.refl _ _, stop _⟩
  | succ n ih =>
    unfold RadsCfg.mergeLoop
    obtain ⟨a1, b1⟩ := peek_spec hpbe hon hws hnc hc hg
    rcases hp : cfg.peek ws st c with ⟨st1, e | c'⟩
    · rw [hp] at a1; exact ⟨a1, stop _⟩
    rw [hp] at a1 b1
    simp only at a1 ⊢
    obtain ⟨hc', -, hcn, donec, lc, ec1, ec2, ec3⟩ := b1 c' rfl
    have hg1 := adds_good hg a1
    obtain ⟨a2, b2⟩ := peek_spec hpbe hon hws hng hgm hg1
    rcases hp2 : cfg.peek ws st1 g with ⟨st2, e | g'⟩
    · rw [hp2] at a2; exact ⟨a1.trans a2, stop _⟩
    rw [hp2] at a2 b2
    simp only at a2 ⊢
    obtain ⟨hg', -, hgn, doneg, lg, eg1, eg2, eg3⟩ := b2 g' rfl
    have hg2 := adds_good hg1 a2
    rcases hb : bestElem c'.cur g'.cur with e | o
    · exact ⟨a1.trans a2, stop _⟩
    rcases bestElem_spec hb with ⟨rfl, h1, h2⟩ | ⟨e, rfl, h1, h2⟩ | ⟨e, rfl, h1, h2⟩
    · refine ⟨a1.trans a2, ⟨by simp, .pre ec1 ec2 ec3 (.stop h1 (hcn h1)), .pre eg1 eg2 eg3 (.stop h2 (hgn h2)), by simp, by simp⟩⟩
    · obtain ⟨a3, m⟩ := ih (c := { c' with cur := none }) (g := g') hg2 ⟨hc'.rest, by simp⟩ hg'
        (fun e => ⟨by simp, .fail _ _, .fail _ _, by simp, by simp⟩)
      simp only
      rcases hm : cfg.mergeLoop ws n st2 { c' with cur := none } g' with ⟨st3, l, r⟩
      rw [hm] at a3 m
      have hen := hc'.cur e h1
      simp only at a3 m ⊢
      refine ⟨(a1.trans a2).trans a3, ⟨?_, .pre ec1 ec2 ec3 (.take h1 hen m.clients), .pre eg1 eg2 eg3 (.other (by rw [hen]; exact hcg) m.games), ?_, ?_⟩⟩
      · intro x hx
        rcases List.mem_cons.1 hx with rfl | hx
        · exact Or.inl hen
        · exact m.names x hx
      · intro s1 s2
        refine List.pairwise_cons.2 ⟨fun x hx => ?_, m.sorted (elemsNamed_tail s1) (elemsNamed_tail s2)⟩
        rcases m.names x hx with hn | hn
        · have : elemsNamed client (e :: l) = e :: elemsNamed client l := by simp [elemsNamed, hen]
          rw [this] at s1
          exact (List.pairwise_cons.1 s1).1 x (by simp [elemsNamed, hx, hn])
        · cases hgc : g'.cur with
          | none => exact absurd hn (m.games.empty hgc (hgn hgc) x hx)
          | some y =>
            rcases m.games.first hgc (elemsNamed_tail s2) x hx hn with rfl | h
            · exact h2 _ hgc
            · exact version_ge_trans (h2 _ hgc) h
      · intro s1
        exact List.pairwise_cons.2 ⟨fun x hx h _ => absurd (hen.symm.trans h) hcg, m.first (elemsNamed_tail s1)⟩
    · obtain ⟨a3, m⟩ := ih (c := c') (g := { g' with cur := none }) hg2 hc' ⟨hg'.rest, by simp⟩
        (fun e => ⟨by simp, .fail _ _, .fail _ _, by simp, by simp⟩)
      simp only
      rcases hm : cfg.mergeLoop ws n st2 c' { g' with cur := none } with ⟨st3, l, r⟩
      rw [hm] at a3 m
      have hen := hg'.cur e h1
      simp only at a3 m ⊢
      have key : (elemsNamed client (e :: l)).Pairwise NewerElem → ∀ x ∈ l, x.name = client → e.version.cmp .gt x.version = .ok true := by
        intro s1 x hx hn
        cases hgc : c'.cur with
        | none => exact absurd hn (m.clients.empty hgc (hcn hgc) x hx)
        | some y =>
          rcases m.clients.first hgc (elemsNamed_tail s1) x hx hn with rfl | h
          · exact h2 _ hgc
          · exact version_gt_of_gt_ge (h2 _ hgc) h
      refine ⟨(a1.trans a2).trans a3, ⟨?_, .pre ec1 ec2 ec3 (.other (by rw [hen]; exact hcg.symm) m.clients), .pre eg1 eg2 eg3 (.take h1 hen m.games), ?_, ?_⟩⟩
      · intro x hx
        rcases List.mem_cons.1 hx with rfl | hx
        · exact Or.inr hen
        · exact m.names x hx
      · intro s1 s2
        refine List.pairwise_cons.2 ⟨fun x hx => ?_, m.sorted (elemsNamed_tail s1) (elemsNamed_tail s2)⟩
        rcases m.names x hx with hn | hn
        · exact version_gt_ge (key s1 x hx hn)
        · have : elemsNamed game (e :: l) = e :: elemsNamed game l := by simp [elemsNamed, hen]
          rw [this] at s2
          exact (List.pairwise_cons.1 s2).1 x (by simp [elemsNamed, hx, hn])
      · intro s1
        exact List.pairwise_cons.2 ⟨fun x hx _ hn => key s1 x hx hn, m.first (elemsNamed_tail s1)⟩

/-! ## Versions are made of numbers -/

theorem patchVersion_nums {t : Str} {v : Version} (ht : ∀ c ∈ t, c ∈ "0123456789.".toList) (h : Cdtb.patchVersion (.str t) = .ok v) : ∃ a b, v.t = .nums [a, b] := by
  unfold Cdtb.patchVersion at h
  have hm : VArg.str t ≠ .str "main".toList := by
    intro he
    simp only [VArg.str.injEq] at he
    have := ht 'm' (by rw [he]; decide +kernel)
    exact absurd this (by decide +kernel)
  rw [if_neg hm] at h
  cases hb : baseVersion (.str t) with
  | error e => rw [hb] at h; simp [bind, Except.bind] at h
  | ok b =>
    rw [hb] at h
    simp only [bind, Except.bind] at h
    split at h
    · simp at h
    · split at h
      · rename_i t' ht'
        split at h
        · rename_i hl
          simp only [Except.ok.injEq] at h
          rw [← h, ht']
          match t', hl with
          | [a, b], _ => exact ⟨a, b, rfl⟩
        · simp at h
      · simp at h

theorem Spec.SolElems.nums (hon : cfg.On site served inflate) {name : Str} {a : List SolVer} {l : List RadsElem} (h : SolElems site cfg.exe name a l) :
    ∀ e ∈ l, ∃ a b, e.version.t = .nums [a, b] := by
  induction h with
  | nil => simp
  | skip _ _ ih => exact ih
  | elem h1 h2 _ ih =>
    intro e he
    rcases List.mem_cons.1 he with rfl | he
    · exact patchVersion_nums (patch_chars hon h1) h2
    · exact ih e he

/-! ## Failures -/

theorem Spec.Blame.mono {ws : Nat → RadsWorld} {a b : List SolVer} {e : Err} (hab : ∀ x ∈ a, x ∈ b) (h : Blame cfg site served ws a e) :
    Blame cfg site served ws b e := by
  obtain ⟨i, fs, sv, e', h1, h2⟩ := h
  exact ⟨i, fs, sv, e', hab _ h1, h2⟩

theorem nextElem_err (hpbe : cfg.url ≠ urlPbe) (hon : cfg.On site served inflate) {ws : Nat → RadsWorld} (hws : ∀ i, RadsWorldOk served (ws i))
    {solution name : Str} (hname : elementName solution = .ok name) (svs : List SolVer) (hsvs : ∀ sv ∈ svs, sv.Plain ∧ sv.name = solution)
    {st : RadsState} (hg : GoodRads cfg.base site served cfg.exe st.fs) :
    ∀ e, (cfg.nextElem ws st svs).2 = .error e → Blame cfg site served ws svs (genErr e) := by
  induction svs generalizing st with
  | nil => simp [RadsCfg.nextElem]
  | cons sv svs ih =>
    obtain ⟨hsv, hsn⟩ := hsvs sv (by simp)
    obtain ⟨h1, h2, h3⟩ := call_spec hpbe hon hws hg hsv
    unfold RadsCfg.nextElem
    rcases hc : cfg.call ws st sv with ⟨st1, e | o⟩
    · intro e' he
      simp only [Except.error.injEq] at he
      subst he
      refine ⟨st.calls, st.fs, sv, e, by simp, hg, ?_, rfl⟩
      have : (cfg.call ws st sv).2 = .error e := by rw [hc]
      exact this
    · rw [hc] at h1 h2 h3
      simp only at h1 h2 h3 ⊢
      cases o with
      | none =>
        intro e he
        exact (ih (fun x hx => hsvs x (by simp [hx])) (adds_good hg h1) e he).mono (fun x hx => by simp [hx])
      | some v =>
        have hcall := h3 v rfl st1.calls
        simp only [RadsCfg.element, hsn, hname]
        have : (⟨st1.fs, st1.calls⟩ : RadsState) = st1 := rfl
        rw [this] at hcall
        rw [hcall]
        simp

theorem peek_err (hpbe : cfg.url ≠ urlPbe) (hon : cfg.On site served inflate) {ws : Nat → RadsWorld} (hws : ∀ i, RadsWorldOk served (ws i))
    {solution name : Str} (hname : elementName solution = .ok name) {p : Peeker} (hp : PeekOk site cfg.exe solution name p)
    {st : RadsState} (hg : GoodRads cfg.base site served cfg.exe st.fs) :
    ∀ e, (cfg.peek ws st p).2 = .error e → Blame cfg site served ws p.rest e := by
  obtain ⟨cur, rest⟩ := p
  unfold RadsCfg.peek
  cases cur with
  | some e => simp
  | none =>
    have h2 := nextElem_err hpbe hon hws hname rest hp.rest hg
    simp only
    rcases hn : cfg.nextElem ws st rest with ⟨st1, e | ⟨o, rest'⟩⟩
    · rw [hn] at h2
      intro e' he
      simp only [Except.error.injEq] at he
      rw [← he]
      exact h2 e rfl
    · simp

theorem cmp_nums {a b : Version} {x y : List Int} (ha : a.t = .nums x) (hb : b.t = .nums y) (op : CmpOp) : ∃ r, a.cmp op b = .ok r := by
  unfold Version.cmp
  rw [ha, hb]
  exact ⟨_, rfl⟩

/-- Versions held by peekers are made of numbers. -/
def Peeker.Nums (p : Peeker) : Prop := ∀ e, p.cur = some e → ∃ t, e.version.t = .nums t

theorem mergeLoop_err (hpbe : cfg.url ≠ urlPbe) (hon : cfg.On site served inflate) {ws : Nat → RadsWorld} (hws : ∀ i, RadsWorldOk served (ws i))
    (n : Nat) {c g : Peeker} (hc : PeekOk site cfg.exe "league_client_sln".toList "client".toList c)
    (hgm : PeekOk site cfg.exe "lol_game_client_sln".toList "game".toList g) (hcn : c.Nums) (hgn : g.Nums)
    {st : RadsState} (hg : GoodRads cfg.base site served cfg.exe st.fs) (hn : c.size + g.size < n) :
    ∀ e, (cfg.mergeLoop ws n st c g).2.2 = .error e → Blame cfg site served ws (c.rest ++ g.rest) e := by
  have hnc : elementName "league_client_sln".toList = .ok "client".toList := by decide +kernel
  have hng : elementName "lol_game_client_sln".toList = .ok "game".toList := by decide +kernel
  generalize "client".toList = client at *
  generalize "game".toList = game at *
  generalize "league_client_sln".toList = csln at *
  generalize "lol_game_client_sln".toList = gsln at *
  induction n generalizing st c g with
  | zero => omega
  | succ n ih =>
    unfold RadsCfg.mergeLoop
    obtain ⟨a1, b1⟩ := peek_spec hpbe hon hws hnc hc hg
    have e1 := peek_err hpbe hon hws hnc hc hg
    rcases hp : cfg.peek ws st c with ⟨st1, e | c'⟩
    · rw [hp] at e1
      intro e' he
      simp only [Except.error.injEq] at he
      subst he
      exact (e1 e rfl).mono (by simp +contextual)
    rw [hp] at a1 b1
    simp only at a1 ⊢
    obtain ⟨hc', hcs, -, donec, lc, ec1, ec2, ec3⟩ := b1 c' rfl
    have hg1 := adds_good hg a1
    obtain ⟨a2, b2⟩ := peek_spec hpbe hon hws hng hgm hg1
    have e2 := peek_err hpbe hon hws hng hgm hg1
    rcases hp2 : cfg.peek ws st1 g with ⟨st2, e | g'⟩
    · rw [hp2] at e2
      intro e' he
      simp only [Except.error.injEq] at he
      subst he
      exact (e2 e rfl).mono (by simp +contextual)
    rw [hp2] at a2 b2
    simp only at a2 ⊢
    obtain ⟨hg', hgs, -, doneg, lg, eg1, eg2, eg3⟩ := b2 g' rfl
    have hg2 := adds_good hg1 a2
    have hcn' : c'.Nums := by
      intro e he
      have : e ∈ c.cur.toList ++ lc := by rw [ec3, he]; simp
      rcases List.mem_append.1 this with h | h
      · exact hcn e (by simpa using h)
      · obtain ⟨a, b, h⟩ := ec2.nums hon e h; exact ⟨_, h⟩
    have hgn' : g'.Nums := by
      intro e he
      have : e ∈ g.cur.toList ++ lg := by rw [eg3, he]; simp
      rcases List.mem_append.1 this with h | h
      · exact hgn e (by simpa using h)
      · obtain ⟨a, b, h⟩ := eg2.nums hon e h; exact ⟨_, h⟩
    have hsub : ∀ x ∈ c'.rest ++ g'.rest, x ∈ c.rest ++ g.rest := by
      rw [ec1, eg1]
      intro x hx
      simp only [List.mem_append] at hx ⊢
      tauto
    rcases hb : bestElem c'.cur g'.cur with e | o
    · exfalso
      cases h1 : c'.cur with
      | none => rw [h1] at hb; cases h2 : g'.cur <;> rw [h2] at hb <;> simp [bestElem] at hb
      | some x =>
        cases h2 : g'.cur with
        | none => rw [h1, h2] at hb; simp [bestElem] at hb
        | some y =>
          obtain ⟨t, ht⟩ := hcn' x h1
          obtain ⟨u, hu⟩ := hgn' y h2
          obtain ⟨r, hr⟩ := cmp_nums hu ht .gt
          rw [h1, h2] at hb
          simp [bestElem, hr, Except.map] at hb
    rcases bestElem_spec hb with ⟨rfl, h1, h2⟩ | ⟨e, rfl, h1, h2⟩ | ⟨e, rfl, h1, h2⟩
    · simp
    · have hs : ({ c' with cur := none } : Peeker).size + 1 = c'.size := by simp [Peeker.size, h1]; omega
      have m := ih (c := { c' with cur := none }) (g := g') (by intro e he; simp at he) hgn' hg2 (by omega) ⟨hc'.rest, by simp⟩ hg'
      simp only
      rcases hm : cfg.mergeLoop ws n st2 { c' with cur := none } g' with ⟨st3, l, r⟩
      rw [hm] at m
      exact fun e he => (m e he).mono hsub
    · have hs : ({ g' with cur := none } : Peeker).size + 1 = g'.size := by simp [Peeker.size, h1]; omega
      have m := ih (c := c') (g := { g' with cur := none }) hcn' (by intro e he; simp at he) hg2 (by omega) hc' ⟨hg'.rest, by simp⟩
      simp only
      rcases hm : cfg.mergeLoop ws n st2 c' { g' with cur := none } with ⟨st3, l, r⟩
      rw [hm] at m
      exact fun e he => (m e he).mono hsub

/-! ## The whole method -/

theorem newestFirst {names : List Str} {vs : List Version} (h : solutionVersions names = .ok vs) : NewestFirst names vs := by
  obtain ⟨h1, h2, h3⟩ := C40_versions names vs h
  exact ⟨h1, h2, h3⟩

/-- The start of a generator -/
theorem startGen_spec (hpbe : cfg.url ≠ urlPbe) (hon : cfg.On site served inflate) {ws : Nat → RadsWorld} (hws : ∀ i, RadsWorldOk served (ws i))
    {solution name : Str} (hname : elementName solution = .ok name) (hsl : '/' ∉ solution) {listing : Res (List Str)}
    (hl : ∀ names, listing = .ok names → ∀ n ∈ names, '/' ∉ n) {st : RadsState} (hg : GoodRads cfg.base site served cfg.exe st.fs) :
    Adds (RadsFile cfg.base site served cfg.exe) st.fs (cfg.startGen ws st solution listing).1.fs ∧
    (∀ e, (cfg.startGen ws st solution listing).2 = .error e → listing = .error e ∨ (∃ names, listing = .ok names ∧ solutionVersions names = .error e) ∨
      ∃ names vs, listing = .ok names ∧ NewestFirst names vs ∧ Blame cfg site served ws (vs.map (SolVer.mk solution)) e) ∧
    ∀ p, (cfg.startGen ws st solution listing).2 = .ok p → ∃ names vs, listing = .ok names ∧ solutionVersions names = .ok vs ∧
      PeekOk site cfg.exe solution name p ∧ p.Nums ∧
      ∃ done l, vs.map (SolVer.mk solution) = done ++ p.rest ∧ SolElems site cfg.exe name done l ∧ l = p.cur.toList := by
  unfold RadsCfg.startGen
  cases hli : listing with
  | error e => exact ⟨.refl _ _, by simp, by simp⟩
  | ok names =>
    cases hvs : solutionVersions names with
    | error e => simp only [hvs]; exact ⟨.refl _ _, by simp [hvs], by simp⟩
    | ok vs =>
      simp only [hvs]
      have hnf := newestFirst hvs
      have hp : PeekOk site cfg.exe solution name ⟨none, vs.map (SolVer.mk solution)⟩ := by
        refine ⟨fun sv hsv => ?_, by simp⟩
        obtain ⟨v, hv, rfl⟩ := List.mem_map.1 hsv
        exact ⟨⟨hsl, hl names hli v.s (hnf.listed.mem_iff.1 (List.mem_map_of_mem hv))⟩, rfl⟩
      obtain ⟨h1, h2⟩ := peek_spec hpbe hon hws hname hp hg
      refine ⟨h1, fun e he => Or.inr (Or.inr ⟨names, vs, rfl, hnf, peek_err hpbe hon hws hname hp hg e he⟩), fun p hpk => ?_⟩
      obtain ⟨h3, -, -, done, l, h4, h5, h6⟩ := h2 p hpk
      refine ⟨names, vs, rfl, hvs, h3, fun e he => ?_, done, l, h4, h5, h6⟩
      obtain ⟨a, b, h⟩ := h5.nums hon e (by rw [show l = p.cur.toList from h6, he]; simp)
      exact ⟨_, h⟩

theorem map_mk_append {solution : Str} {vs : List Version} {a b : List SolVer} (h : vs.map (SolVer.mk solution) = a ++ b) :
    ∃ u w, vs = u ++ w ∧ a = u.map (SolVer.mk solution) ∧ b = w.map (SolVer.mk solution) := by
  obtain ⟨u, w, rfl, h1, h2⟩ := List.map_eq_append_iff.1 h
  exact ⟨u, w, rfl, h1.symm, h2.symm⟩

theorem part_of {name solution : Str} {names : List Str} {vs : List Version} (hvs : solutionVersions names = .ok vs) {p : Peeker} {done : List SolVer}
    {l out : List RadsElem} {r : Res Unit} (h1 : vs.map (SolVer.mk solution) = done ++ p.rest) (h2 : SolElems site cfg.exe name done l) (h3 : l = p.cur.toList)
    (h : MergePart site cfg.exe name p out r) : FirstElems site cfg.exe name solution names (elemsNamed name out) ∧
      (r = .ok () → AllElems site cfg.exe name solution names (elemsNamed name out)) := by
  have := MergePart.pre (p := ⟨none, vs.map (SolVer.mk solution)⟩) h1 h2 (by simpa using h3) h
  obtain ⟨done', rest, k, e1, e2, e3, e4⟩ := this
  obtain ⟨u, w, rfl, rfl, rfl⟩ := map_mk_append e1
  have hnf := newestFirst hvs
  refine ⟨⟨u, w, k, hnf, e2, by simpa using e3⟩, fun hr => ?_⟩
  obtain ⟨e5, e6⟩ := e4 hr
  obtain rfl := List.map_eq_nil_iff.1 e5
  rw [List.append_nil] at hnf
  refine ⟨u, hnf, ?_⟩
  rw [e6]
  exact e2

theorem mergeNewest_nil (l : List RadsElem) : mergeNewest l [] = l := by cases l <;> simp [mergeNewest]

/-- The main loop, to its end -/
theorem mergeLoop_ok (hpbe : cfg.url ≠ urlPbe) (hon : cfg.On site served inflate) {ws : Nat → RadsWorld} (hws : ∀ i, RadsWorldOk served (ws i))
    (n : Nat) {c g : Peeker} (hc : PeekOk site cfg.exe "league_client_sln".toList "client".toList c)
    (hgm : PeekOk site cfg.exe "lol_game_client_sln".toList "game".toList g) {st : RadsState} (hg : GoodRads cfg.base site served cfg.exe st.fs) :
    (cfg.mergeLoop ws n st c g).2.2 = .ok () → ∃ kc kg, SolElems site cfg.exe "client".toList c.rest kc ∧ SolElems site cfg.exe "game".toList g.rest kg ∧
      (cfg.mergeLoop ws n st c g).2.1 = mergeNewest (c.cur.toList ++ kc) (g.cur.toList ++ kg) := by
  have hnc : elementName "league_client_sln".toList = .ok "client".toList := by decide +kernel
  have hng : elementName "lol_game_client_sln".toList = .ok "game".toList := by decide +kernel
  generalize "client".toList = client at *
  generalize "game".toList = game at *
  generalize "league_client_sln".toList = csln at *
  generalize "lol_game_client_sln".toList = gsln at *
  induction n generalizing st c g with
  | zero => simp [RadsCfg.mergeLoop]
  | succ n ih =>
    unfold RadsCfg.mergeLoop
    obtain ⟨a1, b1⟩ := peek_spec hpbe hon hws hnc hc hg
    rcases hp : cfg.peek ws st c with ⟨st1, e | c'⟩
    · simp
    rw [hp] at a1 b1
    simp only at a1 ⊢
    obtain ⟨hc', -, hcn, donec, lc, ec1, ec2, ec3⟩ := b1 c' rfl
    have hg1 := adds_good hg a1
    obtain ⟨a2, b2⟩ := peek_spec hpbe hon hws hng hgm hg1
    rcases hp2 : cfg.peek ws st1 g with ⟨st2, e | g'⟩
    · simp
    rw [hp2] at a2 b2
    simp only at a2 ⊢
    obtain ⟨hg', -, hgn, doneg, lg, eg1, eg2, eg3⟩ := b2 g' rfl
    have hg2 := adds_good hg1 a2
    -- in terms of the new peekers
    suffices key : ∀ (out : List RadsElem), (∃ kc kg, SolElems site cfg.exe client c'.rest kc ∧ SolElems site cfg.exe game g'.rest kg ∧
        out = mergeNewest (c'.cur.toList ++ kc) (g'.cur.toList ++ kg)) → ∃ kc kg, SolElems site cfg.exe client c.rest kc ∧
        SolElems site cfg.exe game g.rest kg ∧ out = mergeNewest (c.cur.toList ++ kc) (g.cur.toList ++ kg) by
      intro h
      apply key
      revert h
      rcases hb : bestElem c'.cur g'.cur with e | o
      · simp
      rcases bestElem_spec hb with ⟨rfl, h1, h2⟩ | ⟨e, rfl, h1, h2⟩ | ⟨e, rfl, h1, h2⟩
      · intro _
        rw [hcn h1, hgn h2, h1, h2]
        exact ⟨[], [], .nil, .nil, by simp [mergeNewest]⟩
      · have m := ih (c := { c' with cur := none }) (g := g') hg2 ⟨hc'.rest, by simp⟩ hg'
        simp only
        rcases hm : cfg.mergeLoop ws n st2 { c' with cur := none } g' with ⟨st3, l, r⟩
        rw [hm] at m
        simp only at m ⊢
        intro hr
        obtain ⟨kc, kg, k1, k2, k3⟩ := m hr
        refine ⟨kc, kg, k1, k2, ?_⟩
        rw [k3, h1]
        simp only [Option.toList_none, Option.toList_some, List.nil_append, List.cons_append]
        cases hgc : g'.cur with
        | none =>
          rw [hgn hgc] at k2
          cases k2
          simp [mergeNewest_nil]
        | some x =>
          have := h2 x hgc
          have hx : ¬ x.version.cmp .gt e.version = .ok true := by
            rw [h1, hgc] at hb
            intro hx
            simp [bestElem, hx, Except.map] at hb
          simp only [Option.toList_some, List.cons_append, List.nil_append]
          conv_rhs => rw [mergeNewest, if_neg hx]
      · have m := ih (c := c') (g := { g' with cur := none }) hg2 hc' ⟨hg'.rest, by simp⟩
        simp only
        rcases hm : cfg.mergeLoop ws n st2 c' { g' with cur := none } with ⟨st3, l, r⟩
        rw [hm] at m
        simp only at m ⊢
        intro hr
        obtain ⟨kc, kg, k1, k2, k3⟩ := m hr
        refine ⟨kc, kg, k1, k2, ?_⟩
        rw [k3, h1]
        simp only [Option.toList_none, Option.toList_some, List.nil_append, List.cons_append]
        cases hgc : c'.cur with
        | none =>
          rw [hcn hgc] at k1
          cases k1
          simp [mergeNewest]
        | some x =>
          simp only [Option.toList_some, List.cons_append, List.nil_append]
          conv_rhs => rw [mergeNewest, if_pos (h2 x hgc)]
    rintro out ⟨kc, kg, k1, k2, k3⟩
    refine ⟨lc ++ kc, lg ++ kg, ?_, ?_, ?_⟩
    · rw [ec1]; exact ec2.append k1
    · rw [eg1]; exact eg2.append k2
    · rw [k3, ← List.append_assoc, ← List.append_assoc, ec3, eg3]

/-- Everything, in one run of the method -/
theorem patchElements_spec (hpbe : cfg.url ≠ urlPbe) (hon : cfg.On site served inflate) (ws : Nat → RadsWorld) (hws : ∀ i, RadsWorldOk served (ws i))
    (fs : FS) (hg : GoodRads cfg.base site served cfg.exe fs) (client game : Res (List Str)) (hc : PlainListing client) (hgm : PlainListing game)
    (fs' : FS) (l : List RadsElem) (r : Res Unit) (h : cfg.patchElements ws fs client game = (fs', l, r)) :
    Adds (RadsFile cfg.base site served cfg.exe) fs fs' ∧ GoodRads cfg.base site served cfg.exe fs' ∧
    (∀ e ∈ l, e.name = "client".toList ∨ e.name = "game".toList) ∧
    (l ≠ [] ∨ r = .ok () → ∃ cs gs, client = .ok cs ∧ game = .ok gs ∧
      FirstElems site cfg.exe "client".toList "league_client_sln".toList cs (elemsNamed "client".toList l) ∧
      FirstElems site cfg.exe "game".toList "lol_game_client_sln".toList gs (elemsNamed "game".toList l) ∧
      (r = .ok () → AllElems site cfg.exe "client".toList "league_client_sln".toList cs (elemsNamed "client".toList l) ∧
        AllElems site cfg.exe "game".toList "lol_game_client_sln".toList gs (elemsNamed "game".toList l))) ∧
    (r = .ok () → ∃ cs gs cvs gvs kc kg, client = .ok cs ∧ game = .ok gs ∧ solutionVersions cs = .ok cvs ∧ solutionVersions gs = .ok gvs ∧
      SolElems site cfg.exe "client".toList (cvs.map (SolVer.mk "league_client_sln".toList)) kc ∧
      SolElems site cfg.exe "game".toList (gvs.map (SolVer.mk "lol_game_client_sln".toList)) kg ∧ l = mergeNewest kc kg) ∧
    ((elemsNamed "client".toList l).Pairwise NewerElem → (elemsNamed "game".toList l).Pairwise NewerElem → l.Pairwise NewerElem) ∧
    ((elemsNamed "client".toList l).Pairwise NewerElem →
      l.Pairwise fun a b => a.name = "game".toList → b.name = "client".toList → a.version.cmp .gt b.version = .ok true) ∧
    ∀ e, r = .error e → ListingFails client e ∨ ListingFails game e ∨
      (∃ cs vs, client = .ok cs ∧ NewestFirst cs vs ∧ Blame cfg site served ws (vs.map (SolVer.mk "league_client_sln".toList)) e) ∨
      ∃ gs vs, game = .ok gs ∧ NewestFirst gs vs ∧ Blame cfg site served ws (vs.map (SolVer.mk "lol_game_client_sln".toList)) e := by
  have hnc : elementName "league_client_sln".toList = .ok "client".toList := by decide +kernel
  have hng : elementName "lol_game_client_sln".toList = .ok "game".toList := by decide +kernel
  have hsc : '/' ∉ "league_client_sln".toList := by decide +kernel
  have hsg : '/' ∉ "lol_game_client_sln".toList := by decide +kernel
  unfold RadsCfg.patchElements at h
  obtain ⟨a1, b1, c1⟩ := startGen_spec (st := ⟨fs, 0⟩) hpbe hon hws hnc hsc hc hg
  rcases hs : cfg.startGen ws ⟨fs, 0⟩ "league_client_sln".toList client with ⟨st1, e | c⟩
  · rw [hs] at a1 b1 h
    simp only [Prod.mk.injEq] at h a1
    obtain ⟨rfl, rfl, rfl⟩ := h
    refine ⟨a1, adds_good hg a1, by simp, by simp, by simp, by simp, by simp, ?_⟩
    intro e' he
    simp only [Except.error.injEq] at he
    subst he
    rcases b1 e rfl with h | h | h
    · exact Or.inl (Or.inl h)
    · exact Or.inl (Or.inr h)
    · exact Or.inr (Or.inr (Or.inl h))
  rw [hs] at a1 c1 h
  simp only at h a1
  obtain ⟨cs, cvs, rfl, hcvs, hcp, hcn, cdone, cl, ec1, ec2, ec3⟩ := c1 c rfl
  have hg1 := adds_good hg a1
  obtain ⟨a2, b2, c2⟩ := startGen_spec (st := st1) hpbe hon hws hng hsg hgm hg1
  rcases hs2 : cfg.startGen ws st1 "lol_game_client_sln".toList game with ⟨st2, e | g⟩
  · rw [hs2] at a2 b2 h
    simp only [Prod.mk.injEq] at h a2
    obtain ⟨rfl, rfl, rfl⟩ := h
    refine ⟨a1.trans a2, adds_good hg1 a2, by simp, by simp, by simp, by simp, by simp, ?_⟩
    intro e' he
    simp only [Except.error.injEq] at he
    subst he
    rcases b2 e rfl with h | h | h
    · exact Or.inr (Or.inl (Or.inl h))
    · exact Or.inr (Or.inl (Or.inr h))
    · exact Or.inr (Or.inr (Or.inr h))
  rw [hs2] at a2 c2 h
  simp only at h a2
  obtain ⟨gs, gvs, rfl, hgvs, hgp, hgn, gdone, gl, eg1, eg2, eg3⟩ := c2 g rfl
  have hg2 := adds_good hg1 a2
  obtain ⟨a3, m⟩ := mergeLoop_spec hpbe hon hws (c.size + g.size + 1) hcp hgp hg2
  have mk := mergeLoop_ok hpbe hon hws (c.size + g.size + 1) hcp hgp hg2
  have me := mergeLoop_err hpbe hon hws (c.size + g.size + 1) hcp hgp hcn hgn hg2 (by omega)
  rcases hm : cfg.mergeLoop ws (c.size + g.size + 1) st2 c g with ⟨st3, l', r'⟩
  rw [hm] at a3 m me mk h
  simp only [Prod.mk.injEq] at h a3 m me mk
  obtain ⟨rfl, rfl, rfl⟩ := h
  obtain ⟨p1, p2⟩ := part_of hcvs ec1 ec2 ec3 m.clients
  obtain ⟨p3, p4⟩ := part_of hgvs eg1 eg2 eg3 m.games
  refine ⟨(a1.trans a2).trans a3, adds_good hg2 a3, m.names, fun _ => ⟨cs, gs, rfl, rfl, p1, p3, fun hr => ⟨p2 hr, p4 hr⟩⟩, ?_, m.sorted, m.first, ?_⟩
  · intro hr
    obtain ⟨kc, kg, k1, k2, k3⟩ := mk hr
    refine ⟨cs, gs, cvs, gvs, cl ++ kc, gl ++ kg, rfl, rfl, hcvs, hgvs, ?_, ?_, ?_⟩
    · rw [ec1]; exact ec2.append k1
    · rw [eg1]; exact eg2.append k2
    · rw [ec3, eg3]; exact k3
  intro e he
  obtain ⟨i, fs0, sv, e', h1, h2⟩ := me e he
  rcases List.mem_append.1 h1 with h1 | h1
  · exact Or.inr (Or.inr (Or.inl ⟨cs, cvs, rfl, newestFirst hcvs, i, fs0, sv, e', by rw [ec1]; simp [h1], h2⟩))
  · exact Or.inr (Or.inr (Or.inr ⟨gs, gvs, rfl, newestFirst hgvs, i, fs0, sv, e', by rw [eg1]; simp [h1], h2⟩))

/-- Versions of a listing are those its names stand for. -/
theorem solutionVersions_parsed {names : List Str} {vs : List Version} (h : solutionVersions names = .ok vs) :
    ∀ v ∈ vs, radsVersion (.str v.s) = .ok v := by
  unfold solutionVersions at h
  simp only [bind, Except.bind, pure, Except.pure] at h
  split at h
  · simp at h
  · rename_i ws hws
    cases h
    have key : ∀ {l : List Str} {ws : List Version}, l.mapM (fun l => radsVersion (.str l)) = .ok ws → ∀ v ∈ ws, radsVersion (.str v.s) = .ok v := by
      intro l
      induction l with
      | nil => intro ws h; simp [pure, Except.pure] at h; subst h; simp
      | cons x l ih =>
        intro ws h
        simp only [List.mapM_cons, bind, Except.bind] at h
        rcases hx : radsVersion (.str x) with e | v
        · rw [hx] at h; simp at h
        · rw [hx] at h; simp only at h
          rcases hl : l.mapM (fun l => radsVersion (.str l)) with e | vs
          · rw [hl] at h; simp at h
          · rw [hl] at h
            simp only [pure, Except.pure, Except.ok.injEq] at h
            subst h
            intro w hw
            rcases List.mem_cons.1 hw with rfl | hw
            · rw [(radsVersion_ok hx).1]; exact hx
            · exact ih hl w hw
    exact fun v hv => key hws v ((List.perm_insertionSort _ _).subset hv)

/-- The versions do not depend on the order of the listing. -/
theorem solutionVersions_perm {names names' : List Str} (hp : names.Perm names') (hd : DistinctVersions names) {vs vs' : List Version}
    (h : solutionVersions names = .ok vs) (h' : solutionVersions names' = .ok vs') : vs = vs' := by
  have p1 := solutionVersions_parsed h
  have p2 := solutionVersions_parsed h'
  obtain ⟨a1, a2, a3⟩ := newestFirst h
  obtain ⟨b1, b2, b3⟩ := newestFirst h'
  have hs : (vs.map (·.s)).Perm (vs'.map (·.s)) := a1.trans (hp.trans b1.symm)
  have hback : ∀ {us : List Version}, (∀ v ∈ us, radsVersion (.str v.s) = .ok v) →
      (us.map (·.s)).filterMap (fun s => (radsVersion (.str s)).toOption) = us := by
    intro us
    induction us with
    | nil => simp
    | cons u us ih =>
      intro h
      rw [List.map_cons, List.filterMap_cons, h u (by simp)]
      exact congrArg (u :: ·) (ih fun v hv => h v (by simp [hv]))
  have hperm : vs.Perm vs' := by
    rw [← hback p1, ← hback p2]
    exact hs.filterMap _
  refine List.Perm.eq_of_pairwise (fun a b ha hb h1 h2 => ?_) a3 b3 hperm
  obtain ⟨_, _, _, _, ea⟩ := a2 a ha
  obtain ⟨_, _, _, _, eb⟩ := b2 b hb
  have ht : a.t = b.t := by
    rw [ea, eb]
    simp only [Version.cmp, ea, eb, Except.ok.injEq] at h1 h2
    rw [tupleCmp_ge, tupleCmp_lt] at h1 h2
    simp only [Bool.not_eq_true', decide_eq_false_iff_not] at h1 h2
    rw [List.le_antisymm (List.not_lt.1 h2) (List.not_lt.1 h1)]
  have hab := hd a.s (a1.mem_iff.1 (List.mem_map_of_mem ha)) b.s (hp.mem_iff.2 (b1.mem_iff.1 (List.mem_map_of_mem hb))) a b (p1 a ha) (p2 b hb) ht
  have e1 := p1 a ha
  rw [hab, p2 b hb] at e1
  exact (Except.ok.inj e1).symm

section
variable (hpbe : cfg.url ≠ urlPbe) (hon : cfg.On site served inflate) (ws : Nat → RadsWorld) (hws : ∀ i, RadsWorldOk served (ws i))
  (fs : FS) (hg : GoodRads cfg.base site served cfg.exe fs) (client game : Res (List Str)) (hc : PlainListing client) (hgm : PlainListing game)
include hpbe hon hws hg hc hgm

/-- Iterating over patch elements adds legitimate files to a good storage, which stays good, even when it fails. -/
theorem C64_storage : Adds (RadsFile cfg.base site served cfg.exe) fs (cfg.patchElements ws fs client game).1 ∧
    GoodRads cfg.base site served cfg.exe (cfg.patchElements ws fs client game).1 := by
  have := patchElements_spec hpbe hon ws hws fs hg client game hc hgm _ _ _ rfl
  exact ⟨this.1, this.2.1⟩

/-- Without error: the elements are those of the versions of both solutions which have a patch, with this patch, from the newest version of each
solution; there are no others. -/
theorem C64_elements (l : List RadsElem) (h : (cfg.patchElements ws fs client game).2 = (l, .ok ())) :
    ∃ cs gs, client = .ok cs ∧ game = .ok gs ∧ (∀ e ∈ l, e.name = "client".toList ∨ e.name = "game".toList) ∧
      AllElems site cfg.exe "client".toList "league_client_sln".toList cs (elemsNamed "client".toList l) ∧
      AllElems site cfg.exe "game".toList "lol_game_client_sln".toList gs (elemsNamed "game".toList l) := by
  obtain ⟨-, -, h1, h2, -⟩ := patchElements_spec hpbe hon ws hws fs hg client game hc hgm _ l (.ok ()) (Prod.ext rfl h)
  obtain ⟨cs, gs, e1, e2, -, -, h3⟩ := h2 (Or.inr rfl)
  exact ⟨cs, gs, e1, e2, h1, h3 rfl⟩

/-- With an error: the elements given before it are the first ones of each solution. -/
theorem C64_prefix (l : List RadsElem) (e : Err) (h : (cfg.patchElements ws fs client game).2 = (l, .error e)) (hl : l ≠ []) :
    ∃ cs gs, client = .ok cs ∧ game = .ok gs ∧ (∀ e ∈ l, e.name = "client".toList ∨ e.name = "game".toList) ∧
      FirstElems site cfg.exe "client".toList "league_client_sln".toList cs (elemsNamed "client".toList l) ∧
      FirstElems site cfg.exe "game".toList "lol_game_client_sln".toList gs (elemsNamed "game".toList l) := by
  obtain ⟨-, -, h1, h2, -⟩ := patchElements_spec hpbe hon ws hws fs hg client game hc hgm _ l _ (Prod.ext rfl h)
  obtain ⟨cs, gs, e1, e2, h3, h4, -⟩ := h2 (Or.inl hl)
  exact ⟨cs, gs, e1, e2, h1, h3, h4⟩

/-- When the patches of each solution decrease along its versions, the elements given are sorted by patch, and the client comes first for each patch;
with or without an error. -/
theorem C64_sorted (l : List RadsElem) (r : Res Unit) (h : (cfg.patchElements ws fs client game).2 = (l, r))
    (h1 : (elemsNamed "client".toList l).Pairwise NewerElem) (h2 : (elemsNamed "game".toList l).Pairwise NewerElem) :
    l.Pairwise fun a b => NewerElem a b ∧ (a.name = "game".toList → b.name = "client".toList → a.version.cmp .gt b.version = .ok true) := by
  obtain ⟨-, -, -, -, -, h3, h4, -⟩ := patchElements_spec hpbe hon ws hws fs hg client game hc hgm _ l r (Prod.ext rfl h)
  exact (h3 h1 h2).imp₂ (fun _ _ a b => ⟨a, b⟩) (h4 h1)

/-- An error comes from a listing or from the patch version of a listed version. Comparisons never fail, and the second request for the patch of each
version neither fails nor gives something else. -/
theorem C64_failure (l : List RadsElem) (e : Err) (h : (cfg.patchElements ws fs client game).2 = (l, .error e)) :
    ListingFails client e ∨ ListingFails game e ∨
    (∃ cs vs, client = .ok cs ∧ NewestFirst cs vs ∧ Blame cfg site served ws (vs.map (SolVer.mk "league_client_sln".toList)) e) ∨
    ∃ gs vs, game = .ok gs ∧ NewestFirst gs vs ∧ Blame cfg site served ws (vs.map (SolVer.mk "lol_game_client_sln".toList)) e :=
  (patchElements_spec hpbe hon ws hws fs hg client game hc hgm _ l _ (Prod.ext rfl h)).2.2.2.2.2.2.2 e rfl

/-- Whatever is on the disk, whatever happened before, and in whatever order the versions are listed, the elements are the same. -/
theorem C64_agree (ws' : Nat → RadsWorld) (hws' : ∀ i, RadsWorldOk served (ws' i))
    (fs' : FS) (hg' : GoodRads cfg.base site served cfg.exe fs') (cs gs cs' gs' : List Str) (hcs : client = .ok cs) (hgs : game = .ok gs)
    (pc : cs.Perm cs') (pg : gs.Perm gs') (dc : DistinctVersions cs) (dg : DistinctVersions gs) (l l' : List RadsElem)
    (h : (cfg.patchElements ws fs client game).2 = (l, .ok ())) (h' : (cfg.patchElements ws' fs' (.ok cs') (.ok gs')).2 = (l', .ok ())) : l = l' := by
  subst hcs hgs
  have hc' : PlainListing (.ok cs') := by
    rintro _ ⟨⟩ n hn
    exact hc cs rfl n (pc.mem_iff.2 hn)
  have hgm' : PlainListing (.ok gs') := by
    rintro _ ⟨⟩ n hn
    exact hgm gs rfl n (pg.mem_iff.2 hn)
  obtain ⟨-, -, -, -, h1, -⟩ := patchElements_spec hpbe hon ws hws fs hg _ _ hc hgm _ l _ (Prod.ext rfl h)
  obtain ⟨-, -, -, -, h2, -⟩ := patchElements_spec hpbe hon ws' hws' fs' hg' _ _ hc' hgm' _ l' _ (Prod.ext rfl h')
  obtain ⟨_, _, cvs, gvs, kc, kg, ⟨⟩, ⟨⟩, e1, e2, e3, e4, rfl⟩ := h1 rfl
  obtain ⟨_, _, cvs', gvs', kc', kg', ⟨⟩, ⟨⟩, f1, f2, f3, f4, rfl⟩ := h2 rfl
  obtain rfl := solutionVersions_perm pc dc e1 f1
  obtain rfl := solutionVersions_perm pg dg e2 f2
  rw [e3.unique f3, e4.unique f4]

end

/-! ## The PBE -/

/-- `main`, for a version of a solution -/
def mainElem (name : Str) (sv : SolVer) : RadsElem := ⟨name, ⟨"main".toList, .main⟩, sv⟩

theorem nextElem_pbe (h : cfg.url = urlPbe) (ws : Nat → RadsWorld) (st : RadsState) {name : Str} (sv : SolVer) (svs : List SolVer)
    (hn : elementName sv.name = .ok name) : ∃ i, cfg.nextElem ws st (sv :: svs) = (⟨st.fs, i⟩, .ok (some (mainElem name sv), svs)) := by
  have hc : ∀ st, cfg.call ws st sv = (⟨st.fs, st.calls + 1⟩, .ok (some ⟨"main".toList, .main⟩)) := by
    intro st
    simp only [RadsCfg.call, C63_pbe h]
  refine ⟨st.calls + 1 + 1, ?_⟩
  rw [RadsCfg.nextElem, hc]
  simp only [RadsCfg.element, hn, hc]
  rfl

theorem peek_pbe (h : cfg.url = urlPbe) (ws : Nat → RadsWorld) (st : RadsState) {name solution : Str} (hn : elementName solution = .ok name)
    (svs : List SolVer) (hs : ∀ sv ∈ svs, sv.name = solution) :
    ∃ i, cfg.peek ws st ⟨none, svs⟩ = (⟨st.fs, i⟩, .ok ⟨svs.head?.map (mainElem name), svs.tail⟩) := by
  cases svs with
  | nil => exact ⟨st.calls, rfl⟩
  | cons sv svs =>
    obtain ⟨i, hi⟩ := nextElem_pbe h ws st (name := name) sv svs (by rw [hs sv (by simp)]; exact hn)
    refine ⟨i, ?_⟩
    simp only [RadsCfg.peek, hi]
    rfl

/-- A peeker: the next versions are `svs`, and the first one may have been read. -/
def PeekPbe (name : Str) (p : Peeker) (svs : List SolVer) : Prop :=
  p = ⟨none, svs⟩ ∨ p = ⟨svs.head?.map (mainElem name), svs.tail⟩

theorem peek_pbe' (h : cfg.url = urlPbe) (ws : Nat → RadsWorld) (st : RadsState) {name solution : Str} (hn : elementName solution = .ok name)
    (svs : List SolVer) (hs : ∀ sv ∈ svs, sv.name = solution) {p : Peeker} (hp : PeekPbe name p svs) :
    ∃ i, cfg.peek ws st p = (⟨st.fs, i⟩, .ok ⟨svs.head?.map (mainElem name), svs.tail⟩) := by
  rcases hp with rfl | rfl
  · exact peek_pbe h ws st hn svs hs
  · cases svs with
    | nil => exact peek_pbe h ws st hn [] (by simp)
    | cons sv svs => exact ⟨st.calls, rfl⟩

theorem mergeLoop_pbe (h : cfg.url = urlPbe) (ws : Nat → RadsWorld) (n : Nat) (st : RadsState) {client game csln gsln : Str}
    (hc : elementName csln = .ok client) (hg : elementName gsln = .ok game) (cs gs : List SolVer) (hcs : ∀ sv ∈ cs, sv.name = csln)
    (hgs : ∀ sv ∈ gs, sv.name = gsln) {c g : Peeker} (pc : PeekPbe client c cs) (pg : PeekPbe game g gs) (hn : cs.length + gs.length < n) :
    ∃ i, cfg.mergeLoop ws n st c g = (⟨st.fs, i⟩, cs.map (mainElem client) ++ gs.map (mainElem game), .ok ()) := by
  induction n generalizing st cs gs c g with
  | zero => omega
  | succ n ih =>
    obtain ⟨i, hi⟩ := peek_pbe' h ws st hc cs hcs pc
    obtain ⟨j, hj⟩ := peek_pbe' h ws ⟨st.fs, i⟩ hg gs hgs pg
    unfold RadsCfg.mergeLoop
    rw [hi]
    simp only
    rw [hj]
    simp only
    cases cs with
    | nil =>
      cases gs with
      | nil => exact ⟨j, rfl⟩
      | cons y gs =>
        obtain ⟨k, hk⟩ := ih ⟨st.fs, j⟩ [] gs (by simp) (fun x hx => hgs x (by simp [hx])) (Or.inl rfl) (Or.inl rfl) (by simp at hn ⊢; omega)
        refine ⟨k, ?_⟩
        simp only [List.head?_nil, List.head?_cons, Option.map_none, Option.map_some, List.tail_nil, List.tail_cons, bestElem]
        rw [hk]
        simp
    | cons x cs =>
      have hb : bestElem ((x :: cs).head?.map (mainElem client)) (gs.head?.map (mainElem game)) = .ok (some (false, mainElem client x)) := by
        cases gs with
        | nil => rfl
        | cons y gs => rfl
      rw [hb]
      simp only
      obtain ⟨k, hk⟩ := ih ⟨st.fs, j⟩ cs gs (fun x hx => hcs x (by simp [hx])) hgs (c := ⟨none, cs⟩)
        (g := ⟨gs.head?.map (mainElem game), gs.tail⟩) (Or.inl rfl) (Or.inr rfl) (by simp at hn ⊢; omega)
      refine ⟨k, ?_⟩
      simp only [List.tail_cons]
      rw [hk]
      simp

/-- The PBE: one element `main` for every version of the client, then one for every version of the game, from the newest ones; nothing is read or
written. -/
theorem C64_pbe (h : cfg.url = urlPbe) (ws : Nat → RadsWorld) (fs : FS) (cs gs : List Str) (cvs gvs : List Version)
    (hc : solutionVersions cs = .ok cvs) (hg : solutionVersions gs = .ok gvs) :
    cfg.patchElements ws fs (.ok cs) (.ok gs) =
      (fs, cvs.map (fun v => mainElem "client".toList ⟨"league_client_sln".toList, v⟩) ++
        gvs.map (fun v => mainElem "game".toList ⟨"lol_game_client_sln".toList, v⟩), .ok ()) := by
  have hnc : elementName "league_client_sln".toList = .ok "client".toList := by decide +kernel
  have hng : elementName "lol_game_client_sln".toList = .ok "game".toList := by decide +kernel
  have hmap : ∀ (s : Str) (vs : List Version), ∀ sv ∈ vs.map (SolVer.mk s), sv.name = s := by
    intro s vs sv hsv
    obtain ⟨v, -, rfl⟩ := List.mem_map.1 hsv
    rfl
  unfold RadsCfg.patchElements
  generalize "league_client_sln".toList = csln at *
  generalize "lol_game_client_sln".toList = gsln at *
  simp only [RadsCfg.startGen, hc, hg]
  obtain ⟨i, hi⟩ := peek_pbe h ws ⟨fs, 0⟩ hnc _ (hmap csln cvs)
  rw [hi]
  simp only
  obtain ⟨j, hj⟩ := peek_pbe h ws ⟨fs, i⟩ hng _ (hmap gsln gvs)
  rw [hj]
  simp only
  have hsz : ∀ (name : Str) (l : List SolVer), (⟨l.head?.map (mainElem name), l.tail⟩ : Peeker).size = l.length := by
    intro name l
    cases l with
    | nil => rfl
    | cons a l => simp [Peeker.size]; omega
  obtain ⟨k, hk⟩ := mergeLoop_pbe h ws _ ⟨fs, j⟩ hnc hng _ _ (hmap csln cvs) (hmap gsln gvs)
    (c := ⟨(cvs.map (SolVer.mk csln)).head?.map (mainElem "client".toList), (cvs.map (SolVer.mk csln)).tail⟩)
    (g := ⟨(gvs.map (SolVer.mk gsln)).head?.map (mainElem "game".toList), (gvs.map (SolVer.mk gsln)).tail⟩) (Or.inr rfl) (Or.inr rfl)
    (Nat.lt_succ_self _)
  rw [hsz, hsz, hk]
  simp only [List.map_map, Function.comp_def]

end

/-! ## A concrete case -/

example : PlainListing (.ok ["0.0.1.7".toList]) ∧ PlainListing (.ok ["0.0.0.9".toList, "0.0.1.5".toList]) := by
  constructor <;> rintro _ ⟨⟩ <;> decide +kernel

/-- The oldest game has no patch; the newest game is more recent than the client. -/
example : (radsCfg.patchElements (fun _ => radsWorld) radsDisk (.ok ["0.0.1.7".toList]) (.ok ["0.0.0.9".toList, "0.0.1.5".toList])).2 =
    ([⟨"game".toList, ⟨"8.2".toList, .nums [8, 2]⟩, radsGame⟩, ⟨"client".toList, ⟨"8.1".toList, .nums [8, 1]⟩, radsClient⟩], .ok ()) := by decide +kernel

/-- The patch of the client cannot be stored: the game was not asked for. -/
example : (radsCfg.patchElements (fun _ => { radsWorld with faults := fun p => if p = radsClient.cache then { close := some (2, .os 28) } else {} })
    radsDisk (.ok ["0.0.1.7".toList]) (.ok ["0.0.0.9".toList, "0.0.1.5".toList])).2 = ([], .error (.os 28)) := by decide +kernel

/-- A listing with a strange name -/
example : (radsCfg.patchElements (fun _ => radsWorld) radsDisk (.ok ["0.0.1.7".toList]) (.ok ["0.0.1.5".toList, "latest".toList])).2 =
    ([], .error .value) := by decide +kernel

example : (RadsCfg.patchElements { radsCfg with url := urlPbe } (fun _ => radsWorld) radsDisk (.ok ["0.0.1.7".toList]) (.ok ["0.0.0.9".toList, "0.0.1.5".toList])).2 =
    ([mainElem "client".toList radsClient, mainElem "game".toList radsGame, mainElem "game".toList radsOldGame], .ok ()) := by decide +kernel

end Cdtb
